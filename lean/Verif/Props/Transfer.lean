import Verif.Proofs.Transfer2

/-!
# Large messages: splitting and reassembly (C04, C05, C06)
-/
namespace Verif.Props
open Verif Verif.Transfer Verif.Spec

/-! ## C06: reassembly completes exactly with the last missing part -/

/-- Parts of any cut of `data` arrive in any order, repeated any number of times, with any other
traffic in between (`pre`), and `p` is the last missing one: nothing is reported before, `p` gives
exactly `data`. -/
theorem C06_completes_on_last_part (sha : Bytes → Bytes) (data : Bytes) (ps : List (Nat × Bytes))
    (hcut : IsCut data ps) (tbl : Table) (hnew : tbl.get (sha data) = none)
    (pre : List Part) (p : Part)
    (hpre : ∀ q ∈ pre, q.hash = sha data → q.total = data.length ∧ (q.offset, q.data) ∈ ps)
    (hp : p.hash = sha data) (hpt : p.total = data.length) (hpe : (p.offset, p.data) ∈ ps)
    (hmissing : ∀ q ∈ pre, q.hash = sha data → (q.offset, q.data) ≠ (p.offset, p.data))
    (hcover : ∀ x ∈ ps, x = (p.offset, p.data) ∨
      ∃ q ∈ pre, q.hash = sha data ∧ (q.offset, q.data) = x) :
    (∀ e ∈ pre.zip (recvParts sha tbl pre).2, e.1.hash = sha data → e.2 = .none) ∧
    (recvPart sha (recvParts sha tbl pre).1 p).2 = .some data := by
  have h0 : Holds ps data.length (sha data) tbl (fun _ => False) := by
    simp [Holds, hnew]
  obtain ⟨a, b⟩ := recvParts_holds sha data ps hcut pre tbl _ h0 hpre
    ⟨(p.offset, p.data), hpe, by simp, hmissing⟩
  refine ⟨a, ?_⟩
  apply (recvPart_holds sha data ps hcut _ _ b p hp hpt hpe).2.1
  · rintro (h | ⟨q, hq, hqh, hqe⟩)
    · exact h
    · exact hmissing q hq hqh hqe
  · intro x hx
    exact (hcover x hx).imp (fun h => h) (fun h => .inr h)

/-- While some part of the cut has not arrived nothing is reported for the transfer. -/
theorem C06_incomplete_reports_nothing (sha : Bytes → Bytes) (data : Bytes)
    (ps : List (Nat × Bytes)) (hcut : IsCut data ps) (tbl : Table)
    (hnew : tbl.get (sha data) = none) (arr : List Part)
    (harr : ∀ q ∈ arr, q.hash = sha data → q.total = data.length ∧ (q.offset, q.data) ∈ ps)
    (hmiss : ∃ x ∈ ps, ∀ q ∈ arr, q.hash = sha data → (q.offset, q.data) ≠ x) :
    ∀ e ∈ arr.zip (recvParts sha tbl arr).2, e.1.hash = sha data → e.2 = .none := by
  have h0 : Holds ps data.length (sha data) tbl (fun _ => False) := by
    simp [Holds, hnew]
  obtain ⟨x, hx, hq⟩ := hmiss
  exact (recvParts_holds sha data ps hcut arr tbl _ h0 harr ⟨x, hx, by simp, hq⟩).1

/-- Concrete case: three pieces, the last first, one repeated, a part of another transfer between. -/
example :
    let sha : Bytes → Bytes := fun d => [UInt8.ofNat d.length]
    let data : Bytes := [1, 2, 3, 4, 5]
    let pre : List Part := [⟨[5], 5, 3, [4, 5]⟩, ⟨[9], 9, 0, [7]⟩, ⟨[5], 5, 0, [1, 2]⟩,
      ⟨[5], 5, 3, [4, 5]⟩]
    let p : Part := ⟨[5], 5, 2, [3]⟩
    (recvParts sha [] pre).2 = [.none, .none, .none, .none] ∧
    (recvPart sha (recvParts sha [] pre).1 p).2 = .some data := by decide

/-- …whose pieces are a cut. -/
example : IsCut [1, 2, 3, 4, 5] [(0, [1, 2]), (2, [3]), (3, [4, 5])] :=
  ⟨[[1, 2], [3], [4, 5]], by decide, by decide, by decide⟩

/-- Full claim on termination: whatever parts arrive, joining them terminates. -/
def C06_terminates_full : Prop :=
  ∀ (sha : Bytes → Bytes) (id : Bytes) (total : Nat) (es : List (Nat × Bytes)),
    Res.hang ∉ (feed sha id (Transfer.new total) es).2

/-- It is false: a part with no data at offset 0 makes the joining loop (transfer.rs:85-93) spin
forever when the received length reaches the total. -/
theorem C06_terminates_full_false : ¬ C06_terminates_full := by
  intro h
  have := h (fun _ => []) [] 10 [(0, []), (1, [0, 1, 2, 3, 4, 5, 6, 7, 8, 9])]
  revert this
  decide

/-- `hang` in the model is real non-termination: no amount of fuel finishes the loop. -/
theorem C06_hang_is_nontermination (parts : AMap Nat Bytes) (total : Nat)
    (h : combine parts total (total + 1) 0 [] = .hang) (fuel : Nat) :
    combine parts total fuel 0 [] = .hang :=
  combine_hang_forever parts total h fuel

/-- Partial: if no part is empty joining always terminates. (Missing: the receiver does not reject
empty parts, so the hypothesis is not enforced by the code.) -/
theorem C06_terminates_partial (sha : Bytes → Bytes) (id : Bytes) (total : Nat)
    (es : List (Nat × Bytes)) (hne : ∀ e ∈ es, e.2 ≠ []) :
    Res.hang ∉ (feed sha id (Transfer.new total) es).2 :=
  feed_no_hang sha id es _ (by simp [Transfer.new]) hne

example : (feed (fun d => d) [1, 2] (Transfer.new 2) [(1, [2]), (0, [1])]).2 =
    [.none, .some [1, 2]] := by decide

/-! ## C05: integrity and single delivery -/

/-- Whatever is delivered has the announced hash and at least the announced length, whatever parts
were fed before. -/
theorem C05_integrity (sha : Bytes → Bytes) (t : Transfer) (offset : Nat) (d id buf : Bytes)
    (h : (addPart sha t offset d id).2 = .some buf) : sha buf = id ∧ t.total ≤ buf.length :=
  addPart_some sha t offset d id buf h

/-- One transfer delivers (or reports a final error) at most once, for any sequence of parts. -/
theorem C05_single_delivery (sha : Bytes → Bytes) (id : Bytes) (total : Nat) (ht : 0 < total)
    (es : List (Nat × Bytes)) :
    ((feed sha id (Transfer.new total) es).2.filter (fun r => r.isFinal)).length ≤ 1 :=
  feed_at_most_one sha id es _ ht

example : ((feed (fun d => d) [1, 2] (Transfer.new 2)
    [(1, [2]), (0, [1]), (0, [1]), (5, [7]), (1, [2])]).2) =
    [.none, .some [1, 2], .none, .tooMuch, .none] := by decide

/-- Parts are never counted twice and never for nothing: a part at a new position is refused as soon as
the distinct parts together exceed the announced length, whatever came before. -/
theorem C05_excess_refused (sha : Bytes → Bytes) (id : Bytes) (total : Nat) (es : List (Nat × Bytes))
    (o : Nat) (d : Bytes) (hnew : ∀ e ∈ es, e.1 ≠ o) (hgt : total < newBytes [] es + d.length) :
    (addPart sha (feed sha id (Transfer.new total) es).1 o d id).2 = .tooMuch := by
  refine feed_excess sha id es _ [] 0 o d ?_ (.inl rfl) (by simp) hnew ?_
  · intro x; simp [Transfer.new, AMap.get]
  · show total < _
    omega

example : (∀ e ∈ [(0, [1, 2]), (0, [3, 4]), (2, [5])], e.1 ≠ 7) ∧
    (4 : Nat) < newBytes [] [(0, [1, 2]), (0, [3, 4]), (2, [5])] + ([8, 9] : Bytes).length := by decide

/-- Without the hypothesis `0 < total` the claim fails: a transfer announced with length 0
completes once per empty part. (In the receiver such a transfer is dropped after each completion,
so this is about one `Transfer` shared by concurrent tasks.) -/
theorem C05_zero_total_counterexample :
    ((feed (fun d => d) [] (Transfer.new 0) [(0, []), (1, [])]).2.filter
      (fun r => r.isFinal)).length = 2 := by decide

/-- The receiver as a whole: everything it reports as reassembled has the hash under which its
parts were announced. -/
theorem C05_receiver_integrity (sha : Bytes → Bytes) (tbl : Table) (p : Part) (buf : Bytes)
    (h : (recvPart sha tbl p).2 = .some buf) : sha buf = p.hash := by
  unfold recvPart at h
  simp only [] at h
  cases hr : (addPart sha ((tbl.get p.hash).getD (Transfer.new p.total)) p.offset p.data p.hash).2 with
  | some b =>
    simp only [hr] at h
    cases h
    exact (addPart_some sha _ _ _ _ _ hr).1
  | none => simp [hr] at h
  | hang => simp [hr] at h
  | partMissing => simp [hr] at h
  | invalidHash => simp [hr] at h
  | tooMuch => simp [hr] at h

/-- Concurrent callers, any schedule: two callers never both complete the same transfer, and
whatever is delivered has the announced hash – even if parts are replaced while being joined. -/
theorem C05_concurrent (sha : Bytes → Bytes) (id : Bytes) (total : Nat) (ht : 0 < total)
    (args : Nat → Nat × Bytes) (sched : List Nat) :
    let σ := TSys.init.run sha total id args sched
    (∀ i j bi bj, σ.pc i = .ret (.some bi) → σ.pc j = .ret (.some bj) → i = j) ∧
    (∀ i b, σ.pc i = .ret (.some b) → sha b = id ∧ total ≤ b.length) := by
  have hi := trun_inv sha total ht id args _ (tinit_inv sha total id) sched
  refine ⟨?_, hi.good⟩
  intro i j bi bj h1 h2
  exact hi.uniq i j (by simp [h1, TPC.fired, Res.isFinal]) (by simp [h2, TPC.fired, Res.isFinal])

/-- Two overlapping callers: both insert, both add, the first one to compare wins. -/
example :
    let args : Nat → Nat × Bytes := fun i => if i = 0 then (0, [1]) else (1, [2])
    let σ := TSys.init.run (fun d => d) 2 [1, 2] args [0, 1, 1, 0, 0, 1, 0, 0, 0]
    σ.pc 0 = .ret (.some [1, 2]) ∧ σ.pc 1 = .ret .tooMuch := by decide

/-! ## C04: a message longer than one packet reaches the other side -/

/-- Size of the first part: a channel-creating message travels with it (`additional` is its size,
40 for `CreateChannel`, 72 for `ConfirmChannel`; sender.rs:96-127). -/
def firstPart : Option Nat → Nat
  | some a => 984 - a
  | none => 1024

/-- Full claim: the parts the sender emits, in any order, are reassembled to the message. -/
def C04_full : Prop :=
  ∀ (sha : Bytes → Bytes) (data : Bytes) (additional : Option Nat) (arrivals : List Part),
    data ≠ [] → data.length < 2 ^ 32 → additional ∈ [none, some 40, some 72] →
    arrivals.Perm (split data (sha data) additional) →
    Res.some data ∈ (recvParts sha [] arrivals).2

/-- Exact extent of the violation: a message longer than the first part + 1024 bytes is never
delivered, whatever subset of its parts arrives in whatever order and however often. -/
theorem C04_long_never_delivered (sha : Bytes → Bytes) (data : Bytes) (additional : Option Nat)
    (hadd : additional ∈ [none, some 40, some 72]) (hlt : data.length < 2 ^ 32)
    (hlong : firstPart additional + 1024 < data.length) (arrivals : List Part)
    (harr : ∀ q ∈ arrivals, q.hash = sha data → q ∈ split data (sha data) additional) :
    ∀ e ∈ arrivals.zip (recvParts sha [] arrivals).2, e.1.hash = sha data → e.2 = .none := by
  have hf : 0 < firstPart additional ∧ firstPart additional ≤ 1024 := by
    simp only [List.mem_cons, List.not_mem_nil, or_false] at hadd
    rcases hadd with rfl | rfl | rfl <;> simp [firstPart]
  obtain ⟨a, b, c⟩ := split_long data (sha data) hlt additional (firstPart additional)
    (by cases additional <;> rfl) hf.1 hf.2 hlong
  apply recvParts_short sha (sha data) (pairs (split data (sha data) additional)) data.length b c
  · intro t ht; simp [AMap.get] at ht
  · intro q hq hh
    have hm := harr q hq hh
    exact ⟨(a q hm).2, List.mem_map.mpr ⟨q, hm, rfl⟩⟩

theorem recvParts_length (sha : Bytes → Bytes) (arr : List Part) :
    ∀ tbl, (recvParts sha tbl arr).2.length = arr.length := by
  induction arr with
  | nil => intro tbl; rfl
  | cons p arr ih => intro tbl; simp [recvParts, ih]

/-- The full claim is false, e.g. for 2049 zero bytes. -/
theorem C04_full_false : ¬ C04_full := by
  intro h
  let data : Bytes := List.replicate 2049 0
  have hlen : data.length = 2049 := List.length_replicate
  have hd : data ≠ [] := by intro h0; rw [h0] at hlen; simp at hlen
  have hs := h (fun _ => []) data none (split data [] none) hd (by omega) (by simp) (List.Perm.refl _)
  have hall := C04_long_never_delivered (fun _ => []) data none (by simp) (by omega)
    (by simp only [firstPart]; omega) (split data [] none) (fun q hq _ => hq)
  obtain ⟨i, hi, hget⟩ := List.mem_iff_getElem.mp hs
  have hl := recvParts_length (fun _ => []) (split data [] none) []
  have hi2 : i < (split data [] none).length := by omega
  have hmem : ((split data [] none)[i], Res.some data) ∈
      (split data [] none).zip (recvParts (fun _ => []) [] (split data [] none)).2 := by
    rw [List.mem_iff_getElem]
    exact ⟨i, by simp; omega, by simp [hget]⟩
  have hhash : ((split data [] none)[i]).hash = [] :=
    ((split_long data [] (by omega) none 1024 rfl (by omega) (by omega) (by omega)).1 _
      (List.getElem_mem hi2)).1
  exact absurd (hall _ hmem hhash) (by simp)

/-- Partial: every message of at most first part + 1024 bytes arrives: the emitted parts, in any
order, with repetitions and other traffic interleaved, deliver exactly the message, exactly when
the last of them arrives. (Missing: longer messages, where the code loses bytes.) -/
theorem C04_reassembled_partial (sha : Bytes → Bytes) (data : Bytes) (hd : data ≠ [])
    (additional : Option Nat) (hadd : additional ∈ [none, some 40, some 72])
    (hshort : data.length ≤ firstPart additional + 1024)
    (tbl : Table) (hnew : tbl.get (sha data) = none) (pre : List Part) (p : Part)
    (hpre : ∀ q ∈ pre, q.hash = sha data → q ∈ split data (sha data) additional)
    (hp : p ∈ split data (sha data) additional) (hlast : p ∉ pre)
    (hcover : ∀ q ∈ split data (sha data) additional, q = p ∨ q ∈ pre) :
    (∀ e ∈ pre.zip (recvParts sha tbl pre).2, e.1.hash = sha data → e.2 = .none) ∧
    (recvPart sha (recvParts sha tbl pre).1 p).2 = .some data := by
  have hf : 0 < firstPart additional ∧ firstPart additional ≤ 1024 := by
    simp only [List.mem_cons, List.not_mem_nil, or_false] at hadd
    rcases hadd with rfl | rfl | rfl <;> simp [firstPart]
  have hs := split_short data (sha data) hd additional (firstPart additional)
    (by cases additional <;> rfl) hf.1 hf.2 hshort
  have hcut := cutAt_isCut data (firstPart additional) hf.1 hd
  rw [hs] at hpre hp hcover
  have mem : ∀ q : Part, q ∈ (layout 0 (cutAt data (firstPart additional))).map
      (fun e => (⟨sha data, data.length, e.1, e.2⟩ : Part)) →
      q.hash = sha data ∧ q.total = data.length ∧
        (q.offset, q.data) ∈ layout 0 (cutAt data (firstPart additional)) := by
    intro q hq
    obtain ⟨e, he, rfl⟩ := List.mem_map.mp hq
    exact ⟨rfl, rfl, he⟩
  obtain ⟨m1, m2, m3⟩ := mem p hp
  apply C06_completes_on_last_part sha data _ hcut tbl hnew pre p
  · intro q hq hh; exact (mem q (hpre q hq hh)).2
  · exact m1
  · exact m2
  · exact m3
  · intro q hq hh heq
    obtain ⟨n1, n2, _⟩ := mem q (hpre q hq hh)
    apply hlast
    have : q = p := by
      cases q; cases p
      simp only [Prod.mk.injEq] at heq
      simp_all
    exact this ▸ hq
  · intro x hx
    have hq := hcover ⟨sha data, data.length, x.1, x.2⟩ (List.mem_map.mpr ⟨x, hx, rfl⟩)
    rcases hq with hq | hq
    · left; rw [← hq]
    · right; exact ⟨_, hq, rfl, rfl⟩

/-- The hypotheses are met by a message cut in two. -/
example (data : Bytes) (h : data.length = 1500) :
    data.length ≤ firstPart (some 40) + 1024 ∧ firstPart (some 40) < data.length ∧
    (split data [1] (some 40)).length = 2 := by
  have hd : data ≠ [] := by intro h0; rw [h0] at h; simp at h
  refine ⟨by simp only [firstPart]; omega, by simp only [firstPart]; omega, ?_⟩
  rw [split_short _ [1] hd (some 40) 944 rfl (by omega) (by omega) (by omega)]
  simp only [cutAt, h]
  rfl

-- C06_completes_on_last_part: three parts, out of order, one twice, and one of another message
example := C06_completes_on_last_part (fun d => [UInt8.ofNat d.length]) [1, 2, 3, 4, 5]
  [(0, [1, 2]), (2, [3]), (3, [4, 5])] ⟨[[1, 2], [3], [4, 5]], by decide, by decide, by decide⟩ [] rfl
  [⟨[5], 5, 3, [4, 5]⟩, ⟨[9], 9, 0, [7]⟩, ⟨[5], 5, 0, [1, 2]⟩, ⟨[5], 5, 3, [4, 5]⟩] ⟨[5], 5, 2, [3]⟩
  (by decide) rfl rfl (by decide) (by decide) (by decide)

-- C06_hang_is_nontermination: an empty part at offset 0
example := C06_hang_is_nontermination [(0, [])] 2 (by decide)

-- C05_integrity, C05_receiver_integrity
example := C05_integrity (fun d => d) (addPart (fun d => d) (Transfer.new 2) 1 [2] [1, 2]).1 0 [1] [1, 2] [1, 2] (by decide)
example := C05_receiver_integrity (fun d => d) (recvPart (fun d => d) [] ⟨[1, 2], 2, 1, [2]⟩).1 ⟨[1, 2], 2, 0, [1]⟩
  [1, 2] (by decide)

-- C04_long_never_delivered: 3000 bytes, every part arriving once
example (data : Bytes) (h : data.length = 3000) :=
  C04_long_never_delivered (fun _ => [1]) data (some 40) (by simp) (by omega) (by simp only [firstPart]; omega)
    (split data [1] (some 40)) (fun _ hq _ => hq)

end Verif.Props
