import Verif.Proofs.RldpTransfer

/-!
# C37, C38: receiving an RLDP transfer
-/
namespace Verif.Rldp

/-! ### A small erasure code that satisfies the assumptions

Every symbol is the whole data; the decoder answers once it has seen all source numbers. -/

/-- Decoder of the example code. -/
def Fec.toyDecode (s : FecType × List Nat) (n : Nat) (b : Bytes) : (FecType × List Nat) × Option Bytes :=
  if (List.range s.1.packetCount).all (fun i => (n :: s.2).contains i) then ((s.1, n :: s.2), some b)
  else ((s.1, n :: s.2), none)

def Fec.toy : Fec where
  Dec := FecType × List Nat
  new := fun p => (p, [])
  decode := Fec.toyDecode
  count := fun d => (d.length + 767) / 768
  symbol := fun d _ => d
  repairId := fun d s => (d.length + 767) / 768 + s

theorem toy_feed_error (d : Bytes) (ns : List Nat) : ∀ (s : FecType × List Nat) (x : Bytes),
    feed Fec.toy s (syms Fec.toy d ns) = .error x → x = d := by
  induction ns with
  | nil => intro s x h; cases h
  | cons n ns ih =>
    intro s x h
    by_cases hc : (List.range s.1.packetCount).all (fun i => (n :: s.2).contains i) = true
    · have e : Fec.toy.decode s n (Fec.toy.symbol d n) = ((s.1, n :: s.2), some d) := if_pos hc
      simp only [syms, List.map_cons, feed, e] at h
      cases h; rfl
    · have e : Fec.toy.decode s n (Fec.toy.symbol d n) = ((s.1, n :: s.2), none) := if_neg hc
      simp only [syms, List.map_cons, feed, e] at h
      exact ih _ _ h

theorem toy_feed_ok (d : Bytes) (ns : List Nat) : ∀ (s s' : FecType × List Nat),
    feed Fec.toy s (syms Fec.toy d ns) = .ok s' → ns ≠ [] →
      ¬ ∀ i, i < s.1.packetCount → i ∈ s.2 ∨ i ∈ ns := by
  induction ns with
  | nil => intro s s' _ h; exact absurd rfl h
  | cons n ns ih =>
    intro s s' h _ hall
    by_cases hc : (List.range s.1.packetCount).all (fun i => (n :: s.2).contains i) = true
    · have e : Fec.toy.decode s n (Fec.toy.symbol d n) = ((s.1, n :: s.2), some d) := if_pos hc
      simp only [syms, List.map_cons, feed, e] at h
      cases h
    · have e : Fec.toy.decode s n (Fec.toy.symbol d n) = ((s.1, n :: s.2), none) := if_neg hc
      simp only [syms, List.map_cons, feed, e] at h
      by_cases hn : ns = []
      · subst hn
        apply hc
        rw [List.all_eq_true]
        intro i hi
        rw [List.mem_range] at hi
        rw [List.contains_iff_mem, List.mem_cons]
        rcases hall i hi with h1 | h1
        · exact .inr h1
        · rw [List.mem_singleton] at h1; exact .inl h1
      · refine ih _ _ h hn fun i hi => ?_
        rcases hall i hi with h1 | h1
        · exact .inl (List.mem_cons_of_mem _ h1)
        · rcases List.mem_cons.mp h1 with h2 | h2
          · subst h2; exact .inl List.mem_cons_self
          · exact .inr h2

theorem Fec.toy_lawful : Fec.toy.Lawful where
  sound := fun d _ _ ns x h => toy_feed_error d ns _ x h
  complete := by
    intro d hd _ ns h
    have hp : 0 < Fec.toy.count d := by
      have := List.length_pos_iff.mpr hd
      simp only [Fec.toy]; omega
    cases hf : feed Fec.toy (Fec.toy.new (Fec.toy.params d)) (syms Fec.toy d ns) with
    | error x => exact ⟨x, rfl⟩
    | ok s' =>
      refine absurd (fun i hi => .inr (h i hi)) (toy_feed_ok d ns _ s' hf ?_)
      intro e
      have := h 0 hp
      rw [e] at this
      exact absurd this List.not_mem_nil
  count_pos := by
    intro d hd
    have := List.length_pos_iff.mpr hd
    simp only [Fec.toy]; omega

/-! ### C37 -/

/-- Full claim: besides the collected data, the object being decoded fits into the agreed size. -/
def C37_full : Prop := ∀ (f : Fec) (max : Nat) (ms : List Part) (n : Nat),
  ((Receiving.new f max).run ms).transfer.totalSize = some n →
    n ≤ max ∧ ((Receiving.new f max).run ms).transfer.data.length ≤ n ∧
    ∀ p dec, ((Receiving.new f max).run ms).transfer.decoder = some (p, dec) → p.totalLen ≤ n

/-- The length in `fec_type` is never compared with `total_size`: a message announcing 1 byte starts a
decoder for an object of 4294967295 bytes. -/
theorem C37_full_false : ¬ C37_full := by
  intro h
  have e : ((Receiving.new Fec.toy 10).run [⟨⟨4294967295, 768, 2⟩, 0, 1, 0, []⟩]).transfer.decoder =
      some (⟨4294967295, 768, 2⟩, ((⟨4294967295, 768, 2⟩, [0]) : FecType × List Nat)) := rfl
  exact absurd ((h Fec.toy 10 [⟨⟨4294967295, 768, 2⟩, 0, 1, 0, []⟩] 1 rfl).2.2 _ _ e) (by decide)

/-- Whatever is received: no size is agreed and nothing is stored, or the agreed size is one that some
message declared, is at most the maximum, and bounds the data stored; and the loop of `receive` is left
exactly when the data has the agreed size. -/
theorem C37_bounds_partial (f : Fec) (max : Nat) (ms : List Part) :
    (((Receiving.new f max).run ms).transfer.totalSize = none →
      ((Receiving.new f max).run ms).transfer.data = []) ∧
    (∀ n, ((Receiving.new f max).run ms).transfer.totalSize = some n →
      n ≤ max ∧ ((Receiving.new f max).run ms).transfer.data.length ≤ n ∧ ∃ m ∈ ms, m.totalSize = n) ∧
    (((Receiving.new f max).run ms).left = true ↔
      ((Receiving.new f max).run ms).transfer.totalSize =
        some ((Receiving.new f max).run ms).transfer.data.length) := by
  obtain ⟨h1, _, _, h4⟩ := rrun_ok ms (rnew_ok f max)
  refine ⟨fun h => (h1.bounded.unset h).1, fun n hn => ?_, ?_⟩
  · obtain ⟨a, b⟩ := h1.bounded.set n hn
    refine ⟨a, b, ?_⟩
    rcases h4 n hn with e | ⟨m, hm, e⟩
    · cases e
    · exact ⟨m, hm, e.symm⟩
  · rw [h1.left]
    exact done_iff h1.bounded

/-- Once agreed the size never changes, and the data stored is only ever appended to. -/
theorem C37_size_fixed_partial (f : Fec) (max : Nat) (ms ms' : List Part) :
    (∀ n, ((Receiving.new f max).run ms).transfer.totalSize = some n →
      ((Receiving.new f max).run (ms ++ ms')).transfer.totalSize = some n) ∧
    ((Receiving.new f max).run ms).transfer.data <+:
      ((Receiving.new f max).run (ms ++ ms')).transfer.data := by
  have e : (Receiving.new f max).run (ms ++ ms') = ((Receiving.new f max).run ms).run ms' := by
    simp [Receiving.run, List.foldl_append]
  rw [e]
  obtain ⟨h1, _⟩ := rrun_ok ms (rnew_ok f max)
  obtain ⟨_, h2, h3, _⟩ := rrun_ok ms' h1
  exact ⟨h3, h2⟩

/-- A transfer that is too big is refused without any effect. -/
theorem C37_too_big_partial (f : Fec) (max : Nat) (ms : List Part) (h : ∀ m ∈ ms, max < m.totalSize) :
    ((Receiving.new f max).run ms).transfer.totalSize = none ∧
    ((Receiving.new f max).run ms).transfer.data = [] ∧ ((Receiving.new f max).run ms).left = false := by
  obtain ⟨h1, h2, h3⟩ := C37_bounds_partial f max ms
  cases hs : ((Receiving.new f max).run ms).transfer.totalSize with
  | some n =>
    obtain ⟨a, _, m, hm, e⟩ := h2 n hs
    have := h m hm
    omega
  | none =>
    refine ⟨rfl, h1 hs, ?_⟩
    cases hl : ((Receiving.new f max).run ms).left with
    | false => rfl
    | true =>
      have := h3.mp hl
      rw [hs] at this
      cases this

/-- A transfer of 5 bytes in one symbol, after which a different size is declared. -/
example : ((Receiving.new Fec.toy 10).run
    [⟨⟨5, 768, 1⟩, 0, 5, 0, [1, 2, 3, 4, 5]⟩, ⟨⟨5, 768, 1⟩, 0, 9, 0, [1, 2, 3, 4, 5]⟩]).transfer.totalSize =
      some 5 := by decide +kernel

/-! ### C38 -/

/-- Messages of the sender of `data`: symbols of parts that exist, in any order, number and repetition. -/
def honestParts (f : Fec) (data : Bytes) (xs : List (Nat × Nat)) : List Part :=
  xs.map fun x => honestPart f data x.1 x.2

/-- Whatever was lost, repeated or reordered: what is stored is at any time a beginning of the data sent,
made of whole parts; if the transfer is complete it is the data sent. -/
theorem C38_safety_partial (f : Fec) (hf : f.Lawful) (data : Bytes) (hd : data ≠ []) (max : Nat)
    (hm : data.length ≤ max) (xs : List (Nat × Nat)) :
    (((Receiving.new f max).run (honestParts f data xs)).left = true →
      ((Receiving.new f max).run (honestParts f data xs)).transfer.data = data) ∧
    (((Receiving.new f max).run (honestParts f data xs)).left = false →
      ((Receiving.new f max).run (honestParts f data xs)).transfer.part * 2000000 < data.length ∧
      ((Receiving.new f max).run (honestParts f data xs)).transfer.data =
        data.take (((Receiving.new f max).run (honestParts f data xs)).transfer.part * 2000000)) := by
  obtain ⟨ns, h, _⟩ := run_honest hf xs (honest_new f hd hm)
  exact ⟨h.left, fun hl => ⟨h.inside hl, h.got hl⟩⟩

/-- `Complete` is answered only for parts whose bytes are stored. -/
theorem C38_acknowledged_partial (f : Fec) (hf : f.Lawful) (data : Bytes) (hd : data ≠ []) (max : Nat)
    (hm : data.length ≤ max) (xs : List (Nat × Nat)) (p n q : Nat)
    (hq : (((Receiving.new f max).run (honestParts f data xs)).step (honestPart f data p n)).2 =
      some (.complete q)) :
    data.take ((q + 1) * sliceLen) <+:
      (((Receiving.new f max).run (honestParts f data xs)).step (honestPart f data p n)).1.transfer.data := by
  obtain ⟨ns, h, _⟩ := run_honest hf xs (honest_new f hd hm)
  have he := step_honest hf h p n
  unfold honestParts at hq ⊢
  generalize (((Receiving.new f max).run (xs.map fun x => honestPart f data x.1 x.2)).step
    (honestPart f data p n)).1 = r' at he hq ⊢
  generalize (((Receiving.new f max).run (xs.map fun x => honestPart f data x.1 x.2)).step
    (honestPart f data p n)).2 = rep at he hq ⊢
  generalize (Receiving.new f max).run (xs.map fun x => honestPart f data x.1 x.2) = r at he h
  have key : ∀ {ns'}, Honest data r' ns' → (r'.left = true ∨ q < r'.transfer.part) →
      data.take ((q + 1) * sliceLen) <+: r'.transfer.data := by
    intro ns' h' hc
    cases hl : r'.left with
    | true => rw [h'.left hl]; exact List.take_prefix _ _
    | false =>
      rw [h'.got hl]
      rcases hc with hc | hc
      · exact absurd (hl.symm.trans hc) (by decide)
      · exact List.take_prefix_take_left (Nat.mul_le_mul_right _ hc)
  cases he with
  | same h1 e el hp hr => exact key h1 (.inr (e ▸ hr q hq))
  | more h1 e el el' hp hr => exact absurd hq (hr q)
  | next h1 e el el' hp hr =>
    rw [hr] at hq; cases hq
    exact key h1 (.inr (by omega))
  | last h1 e el el' hp hr => exact key h1 (.inl el)

theorem liveness_aux (f : Fec) (hf : f.Lawful) (data : Bytes) (hd : data ≠ []) (max : Nat)
    (hm : data.length ≤ max) (blocks : Nat → List (Nat × Nat))
    (hb : ∀ p, p * sliceLen < data.length → ∀ i, i < f.count (partData data p) → (p, i) ∈ blocks p)
    (k : Nat) (hk : k * sliceLen < data.length + sliceLen) :
    ∃ ns, Honest data ((Receiving.new f max).run (honestParts f data ((List.range k).flatMap blocks))) ns ∧
      (((Receiving.new f max).run (honestParts f data ((List.range k).flatMap blocks))).left = true ∨
        k ≤ ((Receiving.new f max).run
          (honestParts f data ((List.range k).flatMap blocks))).transfer.part) := by
  induction k with
  | zero => exact ⟨[], honest_new f hd hm, .inr (Nat.zero_le _)⟩
  | succ k ih =>
    rw [Nat.add_mul] at hk
    obtain ⟨ns, h, hc⟩ := ih (by omega)
    have e : (Receiving.new f max).run (honestParts f data ((List.range (k + 1)).flatMap blocks)) =
        ((Receiving.new f max).run (honestParts f data ((List.range k).flatMap blocks))).run
          ((blocks k).map fun x => honestPart f data x.1 x.2) := by
      simp [Receiving.run, honestParts, List.range_succ, List.flatMap_append, List.foldl_append]
    rw [e]
    generalize (Receiving.new f max).run (honestParts f data ((List.range k).flatMap blocks)) = r at h hc ⊢
    obtain ⟨ns', h', h2, h3, h4⟩ := run_honest hf (blocks k) h
    refine ⟨ns', h', ?_⟩
    cases hl : (r.run ((blocks k).map fun x => honestPart f data x.1 x.2)).left with
    | true => exact .inl rfl
    | false =>
      refine .inr ?_
      rcases hc with hc | hc
      · exact absurd (hl.symm.trans (h3 hc)) (by decide)
      · rcases Nat.lt_or_ge k ((r.run ((blocks k).map fun x => honestPart f data x.1 x.2)).transfer.part)
          with h5 | h5
        · exact h5
        · exfalso
          have hp : r.transfer.part = k := by omega
          have hp' : (r.run ((blocks k).map fun x => honestPart f data x.1 x.2)).transfer.part = k := by omega
          obtain ⟨_, h6⟩ := h4 hl (by omega)
          have hin := h'.inside hl
          rw [hp'] at hin
          have hdec := h'.dec hl
          have hsrc : ∀ i, i < f.count (partData data k) → i ∈ ns' := fun i hi =>
            h6 i (hp ▸ hb k hin i hi)
          obtain ⟨x, hx⟩ := hf.complete _ (partData_ne_nil hin) (partData_le _ _) ns' hsrc
          unfold DecOk at hdec
          rw [hp'] at hdec
          cases hdc : (r.run ((blocks k).map fun x => honestPart f data x.1 x.2)).transfer.decoder with
          | none =>
            rw [hdc] at hdec
            have := hsrc 0 (hf.count_pos _ (partData_ne_nil hin))
            rw [hdec] at this
            exact absurd this List.not_mem_nil
          | some pd =>
            rw [hdc] at hdec
            obtain ⟨e1, e2⟩ := hdec
            rw [e1, hx] at e2
            cases e2

/-- If for each part in turn all its source symbols arrive - in any order, repeated, and mixed with any
other messages of the sender - then the transfer is complete and the data is the data sent. -/
theorem C38_liveness_partial (f : Fec) (hf : f.Lawful) (data : Bytes) (hd : data ≠ []) (max : Nat)
    (hm : data.length ≤ max) (parts : Nat) (hp : data.length ≤ parts * 2000000)
    (hp' : parts * 2000000 < data.length + 2000000) (blocks : Nat → List (Nat × Nat))
    (hb : ∀ p, p * 2000000 < data.length → ∀ i, i < f.count (partData data p) → (p, i) ∈ blocks p) :
    ((Receiving.new f max).run (honestParts f data ((List.range parts).flatMap blocks))).left = true ∧
    ((Receiving.new f max).run
      (honestParts f data ((List.range parts).flatMap blocks))).transfer.data = data := by
  change _ ≤ parts * sliceLen at hp
  obtain ⟨ns, h, hc⟩ := liveness_aux f hf data hd max hm blocks hb parts hp'
  have hl : ((Receiving.new f max).run
      (honestParts f data ((List.range parts).flatMap blocks))).left = true := by
    cases hl : ((Receiving.new f max).run
      (honestParts f data ((List.range parts).flatMap blocks))).left with
    | true => rfl
    | false =>
      have hin := h.inside hl
      rcases hc with hc | hc
      · exact absurd (hl.symm.trans hc) (by decide)
      · have := Nat.mul_le_mul_right sliceLen hc
        omega
  exact ⟨hl, h.left hl⟩

/-- 1000 bytes take two symbols; here they arrive in the wrong order with a repetition. -/
example : ((Receiving.new Fec.toy 2000).run
    (honestParts Fec.toy (List.replicate 1000 7) [(0, 1), (0, 1), (0, 0)])).left = true ∧
    ((Receiving.new Fec.toy 2000).run
      (honestParts Fec.toy (List.replicate 1000 7) [(0, 1), (0, 1)])).left = false := by decide +kernel

example := C38_safety_partial Fec.toy Fec.toy_lawful (List.replicate 1000 7) (by decide +kernel) 2000 (by decide +kernel)
  [(0, 1), (0, 1), (0, 0)]
example := C38_acknowledged_partial Fec.toy Fec.toy_lawful (List.replicate 1000 7) (by decide +kernel) 2000 (by decide +kernel)
  [(0, 1), (0, 1)] 0 0 0 (by decide +kernel)

end Verif.Rldp
