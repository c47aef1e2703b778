import Verif.Model.RldpTransfer

/-!
# Lemmas about RLDP transfers
-/
namespace Verif.Rldp

/-- Decodes symbols up to the first result (`error d`: decoded to `d`). -/
def feed (f : Fec) (dec : f.Dec) : List (Nat × Bytes) → Except Bytes f.Dec
  | [] => .ok dec
  | (n, b) :: rest =>
    match f.decode dec n b with
    | (_, some d) => .error d
    | (dec', none) => feed f dec' rest

/-- Symbols of some data. -/
def syms (f : Fec) (d : Bytes) (ns : List Nat) : List (Nat × Bytes) := ns.map fun n => (n, f.symbol d n)

/-- What is assumed of RaptorQ for parts of the size used here. -/
structure Fec.Lawful (f : Fec) : Prop where
  /-- symbols of some data, in whatever order and repetition, decode to nothing but that data -/
  sound : ∀ d, d ≠ [] → d.length ≤ sliceLen → ∀ ns x,
    feed f (f.new (f.params d)) (syms f d ns) = .error x → x = d
  /-- all source symbols suffice -/
  complete : ∀ d, d ≠ [] → d.length ≤ sliceLen → ∀ ns, (∀ i, i < f.count d → i ∈ ns) →
    ∃ x, feed f (f.new (f.params d)) (syms f d ns) = .error x
  count_pos : ∀ d, d ≠ [] → 0 < f.count d

theorem feed_append (f : Fec) (l l' : List (Nat × Bytes)) : ∀ {dec dec' : f.Dec},
    feed f dec l = .ok dec' → feed f dec (l ++ l') = feed f dec' l' := by
  induction l with
  | nil => intro dec dec' h; cases h; rfl
  | cons x l ih =>
    intro dec dec' h
    obtain ⟨n, b⟩ := x
    simp only [List.cons_append, feed] at h ⊢
    generalize f.decode dec n b = p at h ⊢
    obtain ⟨d1, o⟩ := p
    cases o with
    | none => exact ih h
    | some d => cases h

theorem sliceLen_pos : 0 < sliceLen := by decide

theorem partData_length (data : Bytes) (p : Nat) :
    (partData data p).length = min sliceLen (data.length - p * sliceLen) := by
  simp [partData]

theorem partData_ne_nil {data : Bytes} {p : Nat} (h : p * sliceLen < data.length) :
    partData data p ≠ [] := by
  intro e
  have := partData_length data p
  rw [e] at this
  have := sliceLen_pos
  simp only [List.length_nil] at *
  omega

theorem partData_le (data : Bytes) (p : Nat) : (partData data p).length ≤ sliceLen := by
  rw [partData_length]; omega

theorem take_append_partData (data : Bytes) (p : Nat) :
    data.take (p * sliceLen) ++ partData data p = data.take ((p + 1) * sliceLen) := by
  rw [partData, Nat.add_mul, Nat.one_mul, List.take_add]

/-! ### Bounds for arbitrary messages -/

/-- Invariant of an incoming transfer, whatever it receives. -/
structure Bounded {f : Fec} (max : Nat) (t : Incoming f) : Prop where
  eqMax : t.maxSize = max
  unset : t.totalSize = none → t.data = [] ∧ t.decoder = none ∧ t.part = 0
  set : ∀ n, t.totalSize = some n → n ≤ max ∧ t.data.length ≤ n

theorem decodePart_effect {f : Fec} (t : Incoming f) (total : Nat) (dec : f.Dec) (m : Part)
    (h : t.data.length ≤ total) :
    (t.decodePart total dec m).1.maxSize = t.maxSize ∧
    (t.decodePart total dec m).1.totalSize = t.totalSize ∧
    (t.decodePart total dec m).1.data.length ≤ total ∧
    t.data <+: (t.decodePart total dec m).1.data := by
  unfold Incoming.decodePart
  split
  · split
    · exact ⟨rfl, rfl, h, List.prefix_refl _⟩
    · split
      · refine ⟨rfl, rfl, ?_, List.prefix_append _ _⟩
        rw [List.length_append]; omega
      · refine ⟨rfl, rfl, ?_, List.prefix_append _ _⟩
        rw [List.length_append]; omega
  · split
    · exact ⟨rfl, rfl, h, List.prefix_refl _⟩
    · exact ⟨rfl, rfl, h, List.prefix_refl _⟩

theorem partStep_effect {f : Fec} (t : Incoming f) (total : Nat) (m : Part)
    (h : t.data.length ≤ total) :
    (t.partStep total m).1.maxSize = t.maxSize ∧
    (t.partStep total m).1.totalSize = t.totalSize ∧
    (t.partStep total m).1.data.length ≤ total ∧
    t.data <+: (t.partStep total m).1.data := by
  unfold Incoming.partStep
  split
  · exact ⟨rfl, rfl, h, List.prefix_refl _⟩
  split
  · exact ⟨rfl, rfl, h, List.prefix_refl _⟩
  split
  · split
    · exact ⟨rfl, rfl, h, List.prefix_refl _⟩
    · exact decodePart_effect t total _ m h
  · exact decodePart_effect t total _ m h

theorem processChunk_bounded {f : Fec} {max : Nat} {t : Incoming f} (h : Bounded max t) (m : Part) :
    Bounded max (t.processChunk m).1 ∧ t.data <+: (t.processChunk m).1.data ∧
    (∀ n, t.totalSize = some n → (t.processChunk m).1.totalSize = some n) ∧
    (∀ n, (t.processChunk m).1.totalSize = some n → t.totalSize = some n ∨ n = m.totalSize) := by
  unfold Incoming.processChunk
  cases hs : t.totalSize with
  | some n =>
    obtain ⟨h1, h2⟩ := h.set n hs
    simp only
    split
    · exact ⟨h, List.prefix_refl _, fun k hk => hs.trans hk, fun k hk => .inl (hs.symm.trans hk)⟩
    · obtain ⟨e1, e2, e3, e4⟩ := partStep_effect t n m h2
      rw [hs] at e2
      refine ⟨⟨e1.trans h.eqMax, fun hu => ?_, fun k hk => ?_⟩, e4, fun k hk => e2.trans hk,
        fun k hk => .inl (e2.symm.trans hk)⟩
      · rw [e2] at hu; cases hu
      · rw [e2] at hk; cases hk; exact ⟨h1, e3⟩
  | none =>
    obtain ⟨u1, u2, u3⟩ := h.unset hs
    simp only
    split
    · refine ⟨h, List.prefix_refl _, fun k hk => (by cases hk), fun k hk => ?_⟩
      exact absurd (hs.symm.trans hk) (by simp)
    · rename_i hmax
      obtain ⟨e1, e2, e3, e4⟩ := partStep_effect { t with totalSize := some m.totalSize } m.totalSize m
        (by simp [u1])
      refine ⟨⟨e1.trans h.eqMax, fun hu => ?_, fun k hk => ?_⟩, e4, fun k hk => (by cases hk), fun k hk => ?_⟩
      · rw [e2] at hu; cases hu
      · rw [e2] at hk; cases hk
        have := h.eqMax
        exact ⟨by omega, e3⟩
      · rw [e2] at hk; cases hk; exact .inr rfl

/-- `done` under the invariant. -/
theorem done_iff {f : Fec} {max : Nat} {t : Incoming f} (h : Bounded max t) :
    t.done = true ↔ t.totalSize = some t.data.length := by
  unfold Incoming.done
  cases hs : t.totalSize with
  | none => simp
  | some n =>
    have := (h.set n hs).2
    simp
    omega

structure ROk {f : Fec} (max : Nat) (r : Receiving f) : Prop where
  bounded : Bounded max r.transfer
  left : r.left = r.transfer.done

theorem rstep_ok {f : Fec} {max : Nat} {r : Receiving f} (h : ROk max r) (m : Part) :
    ROk max (r.step m).1 ∧ r.transfer.data <+: (r.step m).1.transfer.data ∧
    (∀ n, r.transfer.totalSize = some n → (r.step m).1.transfer.totalSize = some n) ∧
    (∀ n, (r.step m).1.transfer.totalSize = some n → r.transfer.totalSize = some n ∨ n = m.totalSize) := by
  unfold Receiving.step
  split
  · exact ⟨h, List.prefix_refl _, fun _ h => h, fun _ h => .inl h⟩
  · obtain ⟨h1, h2, h3, h4⟩ := processChunk_bounded h.bounded m
    exact ⟨⟨h1, rfl⟩, h2, h3, h4⟩

theorem rnew_ok (f : Fec) (max : Nat) : ROk max (Receiving.new f max) :=
  ⟨⟨rfl, fun _ => ⟨rfl, rfl, rfl⟩, fun _ h => by cases h⟩, rfl⟩

theorem rrun_ok {f : Fec} {max : Nat} (ms : List Part) : ∀ {r : Receiving f}, ROk max r →
    ROk max (r.run ms) ∧ r.transfer.data <+: (r.run ms).transfer.data ∧
    (∀ n, r.transfer.totalSize = some n → (r.run ms).transfer.totalSize = some n) ∧
    (∀ n, (r.run ms).transfer.totalSize = some n → r.transfer.totalSize = some n ∨
      ∃ m ∈ ms, n = m.totalSize) := by
  induction ms with
  | nil => intro r h; exact ⟨h, List.prefix_refl _, fun _ h => h, fun _ h => .inl h⟩
  | cons m ms ih =>
    intro r h
    obtain ⟨h1, h2, h3, h4⟩ := rstep_ok h m
    obtain ⟨i1, i2, i3, i4⟩ := ih h1
    refine ⟨i1, h2.trans i2, fun n hn => i3 n (h3 n hn), fun n hn => ?_⟩
    rcases i4 n hn with i | ⟨m', hm', e⟩
    · rcases h4 n i with j | j
      · exact .inl j
      · exact .inr ⟨m, List.mem_cons_self, j⟩
    · exact .inr ⟨m', List.mem_cons_of_mem _ hm', e⟩

/-! ### Messages of an honest sender -/

/-- The message with symbol `n` of part `p` of `data`. -/
def honestPart (f : Fec) (data : Bytes) (p n : Nat) : Part :=
  ⟨f.params (partData data p), p, data.length, n, f.symbol (partData data p) n⟩

/-- The decoder in use has taken the symbols `ns` of the current part. -/
def DecOk {f : Fec} (data : Bytes) (t : Incoming f) (ns : List Nat) : Prop :=
  match t.decoder with
  | none => ns = []
  | some (ps, dec) => ps = f.params (partData data t.part) ∧
      feed f (f.new ps) (syms f (partData data t.part) ns) = .ok dec

/-- Invariant while receiving messages of an honest sender. -/
structure Honest {f : Fec} (data : Bytes) (r : Receiving f) (ns : List Nat) : Prop where
  max : data.length ≤ r.transfer.maxSize
  total : r.transfer.totalSize = none ∨ r.transfer.totalSize = some data.length
  left : r.left = true → r.transfer.data = data
  inside : r.left = false → r.transfer.part * sliceLen < data.length
  got : r.left = false → r.transfer.data = data.take (r.transfer.part * sliceLen)
  dec : r.left = false → DecOk data r.transfer ns

/-- The part is decoded. -/
def Receiving.Decoded {f : Fec} (r : Receiving f) (q : Nat) : Prop := q < r.transfer.part ∨ r.left = true

/-- What one honest message does: nothing new, one more symbol, or the part is decoded. -/
inductive HonestEffect {f : Fec} (data : Bytes) (r : Receiving f) (ns : List Nat) (p n : Nat)
    (r' : Receiving f) (reply : Option Reply) : Prop where
  | same (h : Honest data r' ns) (e : r'.transfer.part = r.transfer.part) (el : r'.left = r.left)
      (hp : r.left = true ∨ p ≠ r.transfer.part)
      (hr : ∀ q, reply = some (.complete q) → q < r.transfer.part)
  | more (h : Honest data r' (ns ++ [n])) (e : r'.transfer.part = r.transfer.part)
      (el : r'.left = false) (el' : r.left = false) (hp : p = r.transfer.part)
      (hr : ∀ q, reply ≠ some (.complete q))
  | next (h : Honest data r' []) (e : r'.transfer.part = r.transfer.part + 1) (el : r'.left = false)
      (el' : r.left = false) (hp : p = r.transfer.part) (hr : reply = some (.complete p))
  | last (h : Honest data r' []) (e : r'.transfer.part = r.transfer.part) (el : r'.left = true)
      (el' : r.left = false) (hp : p = r.transfer.part) (hr : reply = some (.complete p))
      (hlast : data.length ≤ (p + 1) * sliceLen)

theorem syms_append (f : Fec) (d : Bytes) (ns : List Nat) (n : Nat) :
    syms f d (ns ++ [n]) = syms f d ns ++ [(n, f.symbol d n)] := by
  simp [syms]

/-- Decoding a message for the current part. -/
theorem decodePart_honest {f : Fec} (hf : f.Lawful) {data : Bytes} {t : Incoming f} {ns : List Nat}
    {dec : f.Dec} {n u : Nat} (hmax : data.length ≤ t.maxSize)
    (hin : t.part * sliceLen < data.length) (hgot : t.data = data.take (t.part * sliceLen))
    (htot : t.totalSize = some data.length)
    (hdec : feed f (f.new (f.params (partData data t.part))) (syms f (partData data t.part) ns) =
      .ok dec) (r : Receiving f) (hr : r.left = false) (hrp : r.transfer.part = t.part) :
    HonestEffect data r ns t.part n
      ⟨(t.decodePart data.length dec (honestPart f data t.part n)).1, u,
        (t.decodePart data.length dec (honestPart f data t.part n)).1.done⟩
      (some (t.decodePart data.length dec (honestPart f data t.part n)).2) := by
  have hfa := feed_append f (syms f (partData data t.part) ns)
    [(n, f.symbol (partData data t.part) n)] hdec
  rw [← syms_append] at hfa
  have hlen : (data.take (t.part * sliceLen)).length = t.part * sliceLen := by
    rw [List.length_take]; omega
  have hs := sliceLen_pos
  unfold Incoming.decodePart
  simp only [honestPart]
  simp only [feed] at hfa
  generalize f.decode dec n (f.symbol (partData data t.part) n) = pr at hfa
  obtain ⟨dec', o⟩ := pr
  cases o with
  | none =>
    simp only at hfa ⊢
    have hd : ∀ t' : Incoming f, t'.part = t.part → t'.decoder = some (f.params (partData data t.part), dec') →
        DecOk data t' (ns ++ [n]) := by
      intro t' h1 h2
      unfold DecOk
      rw [h2, h1]
      exact ⟨rfl, hfa⟩
    have hdn : ∀ t' : Incoming f, t'.totalSize = t.totalSize → t'.data = t.data → t'.done = false := by
      intro t' h1 h2
      unfold Incoming.done
      rw [h1, h2, htot, hgot]
      simp only [hlen, decide_eq_false_iff_not]
      omega
    by_cases h9 : t.confirmCount = 9
    · rw [if_pos h9]
      refine .more ⟨hmax, .inr htot, ?_, fun _ => hin, fun _ => hgot, fun _ => hd _ rfl rfl⟩ hrp.symm
        (hdn _ rfl rfl) hr hrp.symm (fun q e => by cases e)
      intro hl
      have := hdn { t with decoder := some (f.params (partData data t.part), dec'), confirmCount := 0 } rfl rfl
      exact absurd (this.symm.trans hl) (by decide)
    · rw [if_neg h9]
      refine .more ⟨hmax, .inr htot, ?_, fun _ => hin, fun _ => hgot, fun _ => hd _ rfl rfl⟩ hrp.symm
        (hdn _ rfl rfl) hr hrp.symm (fun q e => by cases e)
      intro hl
      have := hdn { t with decoder := some (f.params (partData data t.part), dec'), confirmCount := t.confirmCount + 1 } rfl rfl
      exact absurd (this.symm.trans hl) (by decide)
  | some d =>
    simp only at hfa ⊢
    have hdd := hf.sound _ (partData_ne_nil hin) (partData_le _ _) _ d hfa
    subst hdd
    have hpl := partData_length data t.part
    have hsum : (partData data t.part).length + t.data.length ≤ data.length := by
      rw [hgot, hlen, hpl]; omega
    rw [if_neg (by omega)]
    have happ := take_append_partData data t.part
    by_cases hlt : t.data.length + (partData data t.part).length < data.length
    · rw [if_pos hlt]
      have hfull : (partData data t.part).length = sliceLen := by
        rw [hgot, hlen, hpl] at hlt
        rw [hpl]
        omega
      have hin' : (t.part + 1) * sliceLen < data.length := by
        rw [hgot, hlen, hfull] at hlt
        rw [Nat.add_mul]
        omega
      have hnd : ∀ t' : Incoming f, t'.totalSize = t.totalSize → t'.data = t.data ++ partData data t.part →
          t'.done = false := by
        intro t' h1 h2
        unfold Incoming.done
        rw [h1, h2, htot, List.length_append]
        simp only [decide_eq_false_iff_not]
        omega
      refine .next ⟨hmax, .inr htot, ?_, fun _ => hin', fun _ => ?_, fun _ => rfl⟩ (by rw [hrp])
        (hnd _ rfl rfl) hr hrp.symm rfl
      · intro hl
        have := hnd { t with data := t.data ++ partData data t.part, decoder := none, part := t.part + 1, confirmCount := 0 } rfl rfl
        exact absurd (this.symm.trans hl) (by decide)
      · simp only
        rw [hgot]
        exact happ
    · rw [if_neg hlt]
      have hall : t.data ++ partData data t.part = data := by
        rw [hgot, happ]
        refine List.take_of_length_le ?_
        rw [hgot, hlen, hpl] at hlt
        rw [Nat.add_mul]
        omega
      have hd : ∀ t' : Incoming f, t'.totalSize = t.totalSize → t'.data = t.data ++ partData data t.part →
          t'.done = true := by
        intro t' h1 h2
        unfold Incoming.done
        rw [h1, h2, htot, hall]
        simp
      have hl := hd { t with data := t.data ++ partData data t.part, decoder := some (f.params (partData data t.part), dec') } rfl rfl
      refine .last ⟨hmax, .inr htot, fun _ => hall, ?_, ?_, ?_⟩ hrp.symm hl hr hrp.symm rfl (by
        rw [hgot, hlen, hpl] at hlt
        rw [Nat.add_mul]
        omega)
      · intro h; exact absurd (hl.symm.trans h) (by decide)
      · intro h; exact absurd (hl.symm.trans h) (by decide)
      · intro h; exact absurd (hl.symm.trans h) (by decide)

theorem partStep_honest {f : Fec} (hf : f.Lawful) {data : Bytes} {t : Incoming f} {ns : List Nat}
    {p n u : Nat} (hmax : data.length ≤ t.maxSize)
    (hin : t.part * sliceLen < data.length) (hgot : t.data = data.take (t.part * sliceLen))
    (htot : t.totalSize = some data.length) (hdec : DecOk data t ns)
    (r : Receiving f) (hr : r.left = false) (hrp : r.transfer.part = t.part) :
    HonestEffect data r ns p n
      ⟨(t.partStep data.length (honestPart f data p n)).1, u,
        (t.partStep data.length (honestPart f data p n)).1.done⟩
      (some (t.partStep data.length (honestPart f data p n)).2) := by
  have hlen : (data.take (t.part * sliceLen)).length = t.part * sliceLen := by
    rw [List.length_take]; omega
  have hnd : t.done = false := by
    unfold Incoming.done
    rw [htot, hgot]
    simp only [hlen, decide_eq_false_iff_not]
    omega
  have hsame : Honest data (⟨t, u, t.done⟩ : Receiving f) ns :=
    ⟨hmax, .inr htot, fun hl => absurd (hnd.symm.trans hl) (by decide), fun _ => hin, fun _ => hgot,
      fun _ => hdec⟩
  unfold Incoming.partStep
  by_cases h1 : p < t.part
  · rw [if_pos (show (honestPart f data p n).part < t.part from h1)]
    refine .same hsame hrp.symm (hnd.trans hr.symm) (.inr (by omega)) ?_
    intro q hq
    cases hq
    rw [hrp]
    exact h1
  rw [if_neg (show ¬ (honestPart f data p n).part < t.part from h1)]
  by_cases h2 : t.part < p
  · rw [if_pos (show t.part < (honestPart f data p n).part from h2)]
    refine .same hsame hrp.symm (hnd.trans hr.symm) (.inr (by omega)) ?_
    intro q hq
    cases hq
  rw [if_neg (show ¬ t.part < (honestPart f data p n).part from h2)]
  have hp : p = t.part := by omega
  subst hp
  cases hd : t.decoder with
  | none =>
    have hns : ns = [] := by unfold DecOk at hdec; rw [hd] at hdec; exact hdec
    subst hns
    exact decodePart_honest hf hmax hin hgot htot rfl r hr hrp
  | some pd =>
    obtain ⟨ps, dec⟩ := pd
    unfold DecOk at hdec
    rw [hd] at hdec
    simp only at hdec ⊢
    rw [if_neg (by rw [hdec.1]; simp [honestPart])]
    rw [hdec.1] at hdec
    exact decodePart_honest hf hmax hin hgot htot hdec.2 r hr hrp

theorem step_honest {f : Fec} (hf : f.Lawful) {data : Bytes} {r : Receiving f} {ns : List Nat}
    (h : Honest data r ns) (p n : Nat) :
    HonestEffect data r ns p n (r.step (honestPart f data p n)).1 (r.step (honestPart f data p n)).2 := by
  unfold Receiving.step
  cases hl : r.left with
  | true =>
    rw [if_pos rfl]
    exact .same h rfl rfl (.inl hl) (fun q e => by cases e)
  | false =>
    rw [if_neg (by decide)]
    simp only
    unfold Incoming.processChunk
    rcases h.total with ht | ht
    · rw [ht]
      simp only
      rw [if_neg (show ¬ (honestPart f data p n).totalSize > r.transfer.maxSize from Nat.not_lt.mpr h.max)]
      exact partStep_honest hf (t := { r.transfer with totalSize := some data.length }) h.max (h.inside hl)
        (h.got hl) rfl (h.dec hl) r hl rfl
    · rw [ht]
      simp only
      rw [if_neg (show ¬ data.length ≠ (honestPart f data p n).totalSize from fun e => e rfl)]
      exact partStep_honest hf h.max (h.inside hl) (h.got hl) ht (h.dec hl) r hl rfl

theorem honest_new (f : Fec) {data : Bytes} (hd : data ≠ []) {max : Nat} (hm : data.length ≤ max) :
    Honest data (Receiving.new f max) [] := by
  refine ⟨hm, .inl rfl, fun h => (by cases h), fun _ => ?_, fun _ => ?_, fun _ => rfl⟩
  · show 0 * sliceLen < _
    rw [Nat.zero_mul]
    exact List.length_pos_iff.mpr hd
  · show [] = data.take (0 * sliceLen)
    rw [Nat.zero_mul]
    rfl

/-- A run over honest messages: the invariant, and if the part is still the same, all its symbols were
taken. -/
theorem run_honest {f : Fec} (hf : f.Lawful) {data : Bytes} (ms : List (Nat × Nat)) :
    ∀ {r : Receiving f} {ns : List Nat}, Honest data r ns →
      ∃ ns', Honest data (r.run (ms.map fun x => honestPart f data x.1 x.2)) ns' ∧
        r.transfer.part ≤ (r.run (ms.map fun x => honestPart f data x.1 x.2)).transfer.part ∧
        (r.left = true → (r.run (ms.map fun x => honestPart f data x.1 x.2)).left = true) ∧
        ((r.run (ms.map fun x => honestPart f data x.1 x.2)).left = false →
          (r.run (ms.map fun x => honestPart f data x.1 x.2)).transfer.part = r.transfer.part →
          (∀ n ∈ ns, n ∈ ns') ∧ ∀ n, (r.transfer.part, n) ∈ ms → n ∈ ns') := by
  induction ms with
  | nil =>
    intro r ns h
    exact ⟨ns, h, Nat.le_refl _, id, fun _ _ => ⟨fun _ h => h, fun _ h => absurd h List.not_mem_nil⟩⟩
  | cons x ms ih =>
    intro r ns h
    obtain ⟨p, n⟩ := x
    simp only [List.map_cons]
    have he := step_honest hf h p n
    have hrun : r.run (honestPart f data p n :: ms.map fun x => honestPart f data x.1 x.2) =
        ((r.step (honestPart f data p n)).1).run (ms.map fun x => honestPart f data x.1 x.2) := rfl
    rw [hrun]
    generalize (r.step (honestPart f data p n)).1 = r1 at he ⊢
    generalize (r.step (honestPart f data p n)).2 = rep at he
    cases he with
    | same h1 e el hp hr =>
      obtain ⟨ns', i1, i2, i3, i4⟩ := ih h1
      refine ⟨ns', i1, by rw [← e]; exact i2, fun hl => i3 (el.trans hl), fun hl he => ?_⟩
      obtain ⟨j1, j2⟩ := i4 hl (he.trans e.symm)
      refine ⟨j1, fun k hk => ?_⟩
      rcases List.mem_cons.mp hk with hk | hk
      · cases hk
        rcases hp with hp | hp
        · exact absurd ((i3 (el.trans hp)).symm.trans hl) (by decide)
        · exact absurd rfl hp
      · exact j2 k (e ▸ hk)
    | more h1 e el el' hp hr =>
      obtain ⟨ns', i1, i2, i3, i4⟩ := ih h1
      refine ⟨ns', i1, by rw [← e]; exact i2, fun hl => absurd (el'.symm.trans hl) (by decide),
        fun hl he => ?_⟩
      obtain ⟨j1, j2⟩ := i4 hl (he.trans e.symm)
      refine ⟨fun k hk => j1 k (List.mem_append_left _ hk), fun k hk => ?_⟩
      rcases List.mem_cons.mp hk with hk | hk
      · have hk2 : k = n := congrArg Prod.snd hk
        subst hk2
        exact j1 k (List.mem_append_right _ List.mem_cons_self)
      · exact j2 k (e ▸ hk)
    | next h1 e el el' hp hr =>
      obtain ⟨ns', i1, i2, i3, i4⟩ := ih h1
      refine ⟨ns', i1, by omega, fun hl => absurd (el'.symm.trans hl) (by decide), fun hl he => ?_⟩
      omega
    | last h1 e el el' hp hr =>
      obtain ⟨ns', i1, i2, i3, i4⟩ := ih h1
      exact ⟨ns', i1, by omega, fun _ => i3 el, fun hl _ => absurd ((i3 el).symm.trans hl) (by decide)⟩

end Verif.Rldp
