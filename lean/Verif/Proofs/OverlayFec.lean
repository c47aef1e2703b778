import Verif.Proofs.OverlayLog

/-!
# Invariants of FEC transfers
-/
namespace Verif.Overlay
open Verif.AdnlProto Verif.Rldp

variable {c : Crypto} {f : Fec}

/-- The signed text of a part of an FEC broadcast: `overlay.broadcast.toSign` of the hash of
`overlay.broadcastFec.partId` (hash of `overlay.broadcastFec.id`, hash of the symbol, symbol number) and
of the date. -/
def fecText (sha : Bytes → Bytes) (src : Bytes) (b : FecPart) : Bytes :=
  leBytes 4 0xfa374e7c ++ (sha (leBytes 4 0xa46962d0 ++ (sha (leBytes 4 0xfb3155a6 ++ (src ++
    (sha (writeFec b.fec) ++ (b.dataHash ++ (leBytes 4 b.dataSize ++ leBytes 4 b.flags))))) ++
    (sha b.data ++ leBytes 4 b.seqno))) ++ leBytes 4 b.date)

/-- The part belongs to the broadcast `bid`, and its signature is one by the key `pub` of `source`. -/
def FecSigned (c : Crypto) (bid source : Bytes) (p : c.Pub × FecPart) : Prop :=
  p.2.dataHash = bid ∧ Node.shortId c p.1 = source ∧ p.2.signature.length = 64 ∧
  c.verify p.1 (fecText c.sha (if p.2.flags % 2 = 0 then source else List.replicate 32 0) p.2)
    p.2.signature = true

/-- The decoder after some parts. -/
def decodeAll (f : Fec) (dec : f.Dec) (ps : List FecPart) : f.Dec :=
  ps.foldl (fun d b => (f.decode d b.seqno b.data).1) dec

theorem fecText_eq (sha : Bytes → Bytes) (b : FecPart) (source : Bytes) :
    fecToSign sha b.dataHash b.dataSize b.date b.flags b.fec b.data b.seqno
      (if sourceMatters b.flags then some source else none) =
    fecText sha (if b.flags % 2 = 0 then source else List.replicate 32 0) b := by
  unfold fecToSign fecText writeToSign Tl.writeU32 sourceBytes sourceMatters
  by_cases h : b.flags % 2 = 0 <;> simp [h]

/-- A transfer: what is in its channel, and how its decoder came about. -/
structure TrInv (t : Transfer c f) : Prop where
  chan : ∀ p ∈ t.chan, p.2.dataHash = t.bid ∧ Node.shortId c p.1 = t.source
  dec : ∃ (fec : FecType) (used : List (c.Pub × FecPart)), t.dec = decodeAll f (f.new fec) (used.map (·.2)) ∧
    ∀ u ∈ used, FecSigned c t.bid t.source u

structure FInv (s : State c f) : Prop where
  entry : ∀ bid i, s.owned.get bid = some (.incoming i) → ∃ t, s.transfers[i]? = some t ∧ t.bid = bid
  trs : ∀ t ∈ s.transfers, TrInv t

theorem processFec_cases (z : Zstd) (dec : f.Dec) (pub : c.Pub) (b : FecPart) (bid source : Bytes)
    (h1 : b.dataHash = bid) (h2 : Node.shortId c pub = source) :
    (processFec c f z dec pub b = (dec, .failed)) ∨
    (FecSigned c bid source (pub, b) ∧ (processFec c f z dec pub b).1 = (f.decode dec b.seqno b.data).1 ∧
      ∀ data, (processFec c f z dec pub b).2 = .done data →
        c.sha data = bid ∧ ∃ r, (f.decode dec b.seqno b.data).2 = some r ∧ r.length = b.dataSize ∧
          (data = r ∨ decompress z r = some data)) := by
  unfold processFec
  rw [fecText_eq, h2]
  by_cases hv : Storage.verifySig c pub (fecText c.sha
      (if b.flags % 2 = 0 then source else List.replicate 32 0) b) b.signature = true
  · right
    rw [if_pos hv]
    simp only [Storage.verifySig, Bool.and_eq_true, decide_eq_true_eq] at hv
    refine ⟨⟨h1, h2, hv.1, hv.2⟩, ?_⟩
    cases hd : f.decode dec b.seqno b.data with
    | mk dec' o =>
      cases o with
      | none => exact ⟨rfl, fun data hh => by cases hh⟩
      | some r =>
        simp only
        split
        · exact ⟨rfl, fun data hh => by cases hh⟩
        · next hl =>
          have hl' : r.length = b.dataSize := by simpa using hl
          have hraw : ∀ data, (if c.sha r = b.dataHash then FecResult.done r else .failed) = .done data →
              c.sha data = bid ∧ ∃ r', some r = some r' ∧ r'.length = b.dataSize ∧
                (data = r' ∨ decompress z r' = some data) := by
            intro data hh
            split at hh
            · next hs =>
              simp only [FecResult.done.injEq] at hh
              subst hh
              exact ⟨hs.trans h1, r, rfl, hl', .inl rfl⟩
            · cases hh
          split
          · next d hz =>
            split
            · next hs =>
              refine ⟨rfl, ?_⟩
              intro data hh
              simp only [FecResult.done.injEq] at hh
              subst hh
              exact ⟨hs.trans h1, r, rfl, hl', .inr hz⟩
            · exact ⟨rfl, hraw⟩
          · exact ⟨rfl, hraw⟩
  · left
    rw [if_neg hv]

/-- One more symbol. -/
theorem TrInv.decoded {t : Transfer c f} (h : TrInv t) {p : c.Pub × FecPart} {rest : List (c.Pub × FecPart)}
    (hc : t.chan = p :: rest) (z : Zstd) (ph : Phase) :
    TrInv { t with dec := (processFec c f z t.dec p.1 p.2).1, chan := rest, packets := t.packets + 1,
                   phase := ph } := by
  obtain ⟨hch, fec, used, hd, hu⟩ := h
  rw [hc] at hch
  refine ⟨fun q hq => hch q (List.mem_cons_of_mem _ hq), ?_⟩
  obtain ⟨e1, e2⟩ := hch p List.mem_cons_self
  rcases processFec_cases (f := f) z t.dec p.1 p.2 t.bid t.source e1 e2 with h1 | ⟨h1, h2, _⟩
  · refine ⟨fec, used, ?_, hu⟩
    rw [h1]; exact hd
  · refine ⟨fec, used ++ [p], ?_, ?_⟩
    · simp only [h2, List.map_append, List.map_cons, List.map_nil]
      unfold decodeAll at hd ⊢
      rw [List.foldl_append, ← hd]
      rfl
    · intro u hu'
      rcases List.mem_append.mp hu' with hu' | hu'
      · exact hu u hu'
      · simp only [List.mem_singleton] at hu'
        subst hu'
        exact h1

theorem mem_set {α : Type} {l : List α} {i : Nat} {a x : α} (h : x ∈ l.set i a) : x ∈ l ∨ x = a :=
  List.mem_or_eq_of_mem_set h

theorem FInv.setT {s : State c f} (h : FInv s) {i : Nat} {t t' : Transfer c f}
    (ht : s.transfers[i]? = some t) (hb : t'.bid = t.bid) (hi : TrInv t') :
    FInv { s with transfers := s.transfers.set i t' } := by
  refine ⟨?_, ?_⟩
  · intro bid j hj
    obtain ⟨u, hu, hub⟩ := h.entry bid j hj
    simp only
    by_cases hij : i = j
    · subst hij
      rw [ht] at hu
      cases hu
      refine ⟨t', ?_, hb.trans hub⟩
      rw [List.getElem?_set]
      have : i < s.transfers.length := by
        rw [List.getElem?_eq_some_iff] at ht
        exact ht.1
      simp [this]
    · refine ⟨u, ?_, hub⟩
      rw [List.getElem?_set]
      simp [hij, hu]
  · intro u hu
    rcases mem_set hu with hu | rfl
    · exact h.trs u hu
    · exact hi

theorem TrInv.congr {t t' : Transfer c f} (h : TrInv t) (h1 : t'.bid = t.bid) (h2 : t'.source = t.source)
    (h3 : t'.chan = t.chan) (h4 : t'.dec = t.dec) : TrInv t' := by
  obtain ⟨hc, fec, used, hd, hu⟩ := h
  refine ⟨?_, fec, used, by rw [h4]; exact hd, ?_⟩
  · rw [h1, h2, h3]; exact hc
  · rw [h1, h2]; exact hu

theorem feed_inv {s : State c f} (h : FInv s) {i : Nat} {t : Transfer c f} (ht : s.transfers[i]? = some t)
    (pub : c.Pub) (b : FecPart) (hb : b.dataHash = t.bid) :
    FInv (feed c f s i t pub (Node.shortId c pub) b).1 := by
  have htr : TrInv t := h.trs t (List.mem_of_getElem? ht)
  unfold feed
  simp only
  split
  · exact h.setT (t' := { t with updatedAt := _ }) ht rfl (htr.congr rfl rfl rfl rfl)
  · next hsrc =>
    split
    · exact h.setT (t' := { t with updatedAt := _, hist := _ }) ht rfl (htr.congr rfl rfl rfl rfl)
    · split
      · exact h.setT (t' := { t with updatedAt := _, hist := _ }) ht rfl (htr.congr rfl rfl rfl rfl)
      · split
        · exact h.setT (t' := { t with updatedAt := _, hist := _ }) ht rfl (htr.congr rfl rfl rfl rfl)
        · refine h.setT (t' := { t with updatedAt := _, hist := _, chan := t.chan ++ [(pub, b)] }) ht rfl ?_
          obtain ⟨hc, hd⟩ := htr
          refine ⟨?_, hd⟩
          intro p hp
          rcases List.mem_append.mp hp with hp | hp
          · exact hc p hp
          · simp only [List.mem_singleton] at hp
            subst hp
            exact ⟨hb, (not_ne_iff.mp hsrc).symm⟩

theorem newTransfer_inv {e : Env} {s : State c f} (h : FInv s) (b : FecPart) (source : Bytes) :
    FInv (newTransfer c f e s b source) := by
  refine ⟨?_, ?_⟩
  · intro bid i hi
    simp only [newTransfer] at hi ⊢
    rw [AMap.get_put] at hi
    split at hi
    · next hk =>
      cases hi
      exact ⟨_, by rw [List.getElem?_append_right (Nat.le_refl _)]; simp; rfl, hk.symm⟩
    · obtain ⟨t, ht, hb⟩ := h.entry bid i hi
      refine ⟨t, ?_, hb⟩
      have hlt : i < s.transfers.length := (List.getElem?_eq_some_iff.mp ht).1
      rw [List.getElem?_append_left hlt]
      exact ht
  · intro t ht
    simp only [newTransfer, List.mem_append, List.mem_singleton] at ht
    rcases ht with ht | rfl
    · exact h.trs t ht
    · exact ⟨fun p hp => absurd hp List.not_mem_nil, b.fec, [], rfl, fun u hu => absurd hu List.not_mem_nil⟩

theorem FInv.putOther {s : State c f} (h : FInv s) (bid : Bytes) {s' : State c f}
    (ho : s'.owned = s.owned.put bid .other) (ht : s'.transfers = s.transfers) : FInv s' := by
  refine ⟨?_, by rw [ht]; exact h.trs⟩
  intro b i hi
  rw [ho, AMap.get_put] at hi
  split at hi
  · cases hi
  · rw [ht]; exact h.entry b i hi

theorem FInv.congr {s s' : State c f} (h : FInv s) (ho : s'.owned = s.owned)
    (ht : s'.transfers = s.transfers) : FInv s' :=
  ⟨by rw [ho, ht]; exact h.entry, by rw [ht]; exact h.trs⟩

theorem FInv.step {e : Env} {s : State c f} (h : FInv s) (a : Action) :
    FInv (step c f e s a).1 := by
  cases a with
  | tick ms => exact h.congr rfl rfl
  | ordinary now b =>
    simp only [Overlay.step, receiveOrdinary]
    split
    · exact h
    · exact h
    · split
      · exact h
      · exact h.putOther _ rfl rfl
  | fec now b =>
    simp only [Overlay.step, receiveFec]
    split
    · exact h
    · exact h
    · split
      · exact h
      · split
        · exact h
        · next pub _ _ =>
          have hs : FInv (if (s.owned.get b.dataHash).isNone = true then
                newTransfer c f e s b (Node.shortId c pub) else s) := by
            split
            · exact newTransfer_inv h b _
            · exact h
          generalize (if (s.owned.get b.dataHash).isNone = true then
                newTransfer c f e s b (Node.shortId c pub) else s) = s' at hs ⊢
          split
          · next i hi =>
            obtain ⟨t, ht, hb⟩ := hs.entry _ _ hi
            rw [ht]
            exact feed_inv hs ht pub b hb.symm
          · exact hs
  | own bid =>
    simp only [Overlay.step, createOwn]
    split
    · exact h
    · exact h.putOther _ rfl rfl
  | task i =>
    simp only [Overlay.step, taskStep]
    cases ht : s.transfers[i]? with
    | none => exact h
    | some t =>
      have htr : TrInv t := h.trs t (List.mem_of_getElem? ht)
      simp only
      split
      · exact h
      · cases hc : t.chan with
        | nil =>
          simp only
          split
          · exact h
          · exact h.setT (t' := { t with chan := [], phase := .leaving }) ht rfl
              (htr.congr rfl rfl hc.symm rfl)
        | cons p rest =>
          obtain ⟨pub, b⟩ := p
          simp only
          have hdec := fun ph => htr.decoded hc e.z ph
          cases hp : processFec c f e.z t.dec pub b with
          | mk dec r =>
            simp only [hp] at hdec
            cases r with
            | done data => exact h.setT (t' := { t with dec := dec, chan := rest, packets := t.packets + 1, phase := .leaving }) ht rfl (hdec .leaving)
            | more => exact h.setT (t' := { t with dec := dec, chan := rest, packets := t.packets + 1 }) ht rfl (hdec t.phase)
            | failed => exact h.setT (t' := { t with dec := dec, chan := rest, packets := t.packets + 1, phase := .leaving }) ht rfl (hdec .leaving)
  | mark i =>
    simp only [Overlay.step, markStep]
    cases ht : s.transfers[i]? with
    | none => exact h
    | some t =>
      have htr : TrInv t := h.trs t (List.mem_of_getElem? ht)
      simp only
      split
      · exact h
      · have h2 : FInv { s with transfers := s.transfers.set i { t with phase := .ended } } :=
          h.setT (t' := { t with phase := .ended }) ht rfl (htr.congr rfl rfl rfl rfl)
        split
        · split
          · next j _ u hu =>
            refine h2.setT (t' := { u with completed := true }) hu rfl
              ((h2.trs u (List.mem_of_getElem? hu)).congr rfl rfl rfl rfl)
          · exact h2
        · exact h2
  | cleanup i =>
    simp only [Overlay.step, cleanupStep]
    split
    · exact h
    · split
      · exact h
      · split <;> exact h.congr rfl rfl
  | expire i =>
    simp only [Overlay.step]
    split
    · exact h
    · split
      · exact h
      · exact h.congr rfl rfl
  | push i =>
    simp only [Overlay.step]
    split
    · exact h
    · exact h.congr rfl rfl
  | gcCheck => simp only [Overlay.step]; split <;> [exact h.congr rfl rfl; exact h]
  | gcPop =>
    simp only [Overlay.step]
    split
    · split
      · exact h.congr rfl rfl
      · refine ⟨?_, h.trs⟩
        intro b i hi
        simp only [AMap.get_erase] at hi
        split at hi
        · cases hi
        · exact h.entry b i hi
    · exact h
  | gcSub => simp only [Overlay.step]; split <;> [exact h.congr rfl rfl; exact h]

theorem FInv.init : FInv (State.init c f) :=
  ⟨fun bid i h => (by cases h), fun t ht => absurd ht List.not_mem_nil⟩

theorem FInv.run (e : Env) (as : List Action) : ∀ {s : State c f}, FInv s → FInv (run c f e s as) := by
  induction as with
  | nil => intro s h; exact h
  | cons a as ih => intro s h; exact ih (h.step a)

/-- What a delivery by a task means. -/
theorem delivered_task {e : Env} {s : State c f} (h : FInv s) {i : Nat} {d : Delivery}
    (hd : (Overlay.step c f e s (.task i)).2.delivered = some d) :
    ∃ t pub b rest, s.transfers[i]? = some t ∧ t.phase = .running ∧ t.chan = (pub, b) :: rest ∧
      d.source = t.source ∧ d.packets = t.packets + 1 ∧
      FecSigned c t.bid t.source (pub, b) ∧ c.sha d.data = t.bid ∧
      (∃ r, (f.decode t.dec b.seqno b.data).2 = some r ∧ r.length = b.dataSize ∧
        (d.data = r ∨ decompress e.z r = some d.data)) ∧
      (∃ t', t'.bid = t.bid ∧ t'.phase = .leaving ∧
        (Overlay.step c f e s (.task i)).1 = { s with transfers := s.transfers.set i t' }) := by
  simp only [Overlay.step, taskStep] at hd ⊢
  cases ht : s.transfers[i]? with
  | none => rw [ht] at hd; cases hd
  | some t =>
    have htr : TrInv t := h.trs t (List.mem_of_getElem? ht)
    rw [ht] at hd
    simp only at hd ⊢
    by_cases hph : t.phase = .running
    · rw [if_neg (by simp [hph])] at hd ⊢
      cases hc : t.chan with
      | nil => rw [hc] at hd; simp only at hd; split at hd <;> cases hd
      | cons p rest =>
        obtain ⟨pub, b⟩ := p
        rw [hc] at hd
        simp only at hd ⊢
        obtain ⟨e1, e2⟩ := htr.chan (pub, b) (by rw [hc]; exact List.mem_cons_self)
        have hcs := processFec_cases (f := f) e.z t.dec pub b t.bid t.source e1 e2
        cases hp : processFec c f e.z t.dec pub b with
        | mk dec r =>
          rw [hp] at hd
          rw [hp] at hcs
          cases r with
          | done data =>
            simp only [Option.some.injEq] at hd
            rcases hcs with hcs | ⟨h1, _, h3⟩
            · cases hcs
            · obtain ⟨h4, h5⟩ := h3 data rfl
              subst hd
              exact ⟨t, pub, b, rest, rfl, hph, hc, rfl, rfl, h1, h4, h5,
                { t with dec := dec, chan := rest, packets := t.packets + 1, phase := .leaving },
                rfl, rfl, rfl⟩
          | more => cases hd
          | failed => cases hd
    · rw [if_pos (by simpa using hph)] at hd; cases hd

end Verif.Overlay
