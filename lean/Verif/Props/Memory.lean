import Mathlib.Data.List.Dedup
import Mathlib.Data.List.Perm.Subperm
import Verif.Proofs.Memory
import Verif.Props.Signed

/-!
# C118: what is held for unfinished transfers is no more than what was sent

`src/adnl/transfer.rs`, `src/adnl/node/receiver.rs:188-256`, `src/rldp/incoming_transfer.rs:53-139`,
`src/rldp/transfers_cache.rs`. A message that comes in parts, and an RLDP transfer, take memory before they are complete,
on behalf of peers about whom nothing is known. The quantities are those of `Spec/Memory.lean`.

* `C118_full`: ADNL and RLDP hold at most as many bytes as came in parts, and no ADNL message more than its announced
  size. False (`C118_full_false`): the first part of an RLDP transfer makes the node reserve its whole announced size,
  whatever the part contains, and an ADNL part sent a second time replaces the first without being counted.
* `C118_reserved`: `n` parts without any data reserve `n` times the largest allowed size, for every `n`.
* `C118_reserved_partial`: and that is the most: never more than the largest allowed size for every different transfer
  that parts came for, or that was asked for.
* `C118_held_partial`: ADNL holds at most the bytes that came, in at most as many entries as parts came, and
  `C118_entry_partial` says the same of every single message.
* `C118_entries`: that many entries are possible: there is no limit to their number.
* `C118_overwritten`: a message announced with `n + 1` bytes holds `n * d` bytes after `2 * n` parts, for every `n` and `d`.
* `C118_no_rewrite_partial`: when no two parts have the same hash and offset, no message holds more than was announced.
-/
namespace Verif.Memory
open Verif.Tl Verif.Transfer Verif.Rldp Verif.RldpTable

/-- The whole claim. -/
def C118_full : Prop :=
  (∀ (sha : Bytes → Bytes) (evs : List Ev), held (after sha evs) ≤ bytes (arrived evs)) ∧
  (∀ (sha : Bytes → Bytes) (evs : List Ev) (h : Bytes) (t : Transfer), (after sha evs).get h = some t →
    heldBy t ≤ t.total) ∧
  (∀ (f : Fec) (z : Zstd) (o : ROpts) (build : Build) (acts : List RAct), reserved (rafter f z o build acts) ≤ rbytes acts)

/-! ## ADNL -/

/-- Whatever arrives and expires: no more bytes are held than came, and no more entries than parts. -/
theorem C118_held_partial (sha : Bytes → Bytes) (evs : List Ev) :
    held (after sha evs) ≤ bytes (arrived evs) ∧ (after sha evs).length ≤ (arrived evs).length := by
  have := steps_bound sha evs []
  simpa [after, held] using this

/-- A message whose size was announced as 5, its first part and a part of another one; both are held. -/
example : held (after id [.part ⟨[1], 5, 0, [7, 8]⟩, .part ⟨[2], 9, 0, [9]⟩]) = 3 ∧
    bytes (arrived [.part ⟨[1], 5, 0, [7, 8]⟩, .part ⟨[2], 9, 0, [9]⟩]) = 3 := by decide +kernel

/-- Each unfinished message holds at most the bytes that came with its hash, and its size was announced by one of
those parts. -/
theorem C118_entry_partial (sha : Bytes → Bytes) (evs : List Ev) (h : Bytes) (t : Transfer)
    (ht : (after sha evs).get h = some t) :
    heldBy t ≤ bytes ((arrived evs).filter fun p => p.hash = h) ∧
    ∃ p ∈ arrived evs, p.hash = h ∧ p.total = t.total := by
  have := known_after sha evs [] [] (by simp) h t ht
  exact ⟨by simpa [partsOf] using this.held, by simpa using this.announced⟩

example := C118_entry_partial id [.part ⟨[1], 5, 0, [7, 8]⟩, .part ⟨[2], 9, 0, [9]⟩, .expire [1]] [2]
  ⟨[(0, [9])], 1, 9⟩ (by rfl)

/-- When no two parts agree in hash and offset, no message holds more bytes than were announced. -/
theorem C118_no_rewrite_partial (sha : Bytes → Bytes) (evs : List Ev)
    (hn : ((arrived evs).map fun p => (p.hash, p.offset)).Nodup) (h : Bytes) (t : Transfer)
    (ht : (after sha evs).get h = some t) : heldBy t ≤ t.total :=
  (counted_after sha evs [] [] (by simp) (by simpa using hn) h t ht).1

example := C118_no_rewrite_partial id [.part ⟨[1], 5, 0, [7, 8]⟩, .part ⟨[2], 9, 0, [9]⟩, .part ⟨[2], 9, 1, [9, 9]⟩]
  (by decide) [2] ⟨[(1, [9, 9]), (0, [9])], 3, 9⟩ (by rfl)

/-- A 32-byte hash or transfer id for every number. -/
def idOf (i : Nat) : Bytes := writeU32 i ++ List.replicate 28 0

theorem idOf_length (i : Nat) : (idOf i).length = 32 := by simp [idOf, writeU32, leBytes]

theorem idOf_inj {i j : Nat} (hi : i < 2 ^ 32) (hj : j < 2 ^ 32) (h : idOf i = idOf j) : i = j :=
  Verif.Signed.u32_inj hi hj (List.append_cancel_right h)

/-- The first byte of a message of two bytes, for hash number `i`. -/
def oneByte (i : Nat) : Transfer.Part := ⟨idOf i, 2, 0, [0]⟩

theorem entries_run (sha : Bytes → Bytes) (n : Nat) (hn : n ≤ 2 ^ 32) :
    (after sha ((List.range n).map fun i => .part (oneByte i))).length = n ∧
    ∀ k ∈ (after sha ((List.range n).map fun i => .part (oneByte i))).keys, ∃ i < n, k = idOf i := by
  induction n with
  | zero => simp [after, AMap.keys]
  | succ n ih =>
    obtain ⟨h1, h2⟩ := ih (by omega)
    rw [List.range_succ, List.map_append, after, List.foldl_append, ← after]
    generalize after sha ((List.range n).map fun i => .part (oneByte i)) = tbl at h1 h2
    have hg : tbl.get (idOf n) = none := by
      rw [AMap.get_eq_none_iff]; intro hc
      obtain ⟨i, hi, he⟩ := h2 _ hc
      exact absurd (idOf_inj (by omega) (by omega) he) (by omega)
    have hr : (recvPart sha tbl (oneByte n)).1 = tbl.put (idOf n) ⟨[(0, [0])], 1, 2⟩ := by
      have ha : addPart sha (Transfer.new 2) 0 [0] (idOf n) = (⟨[(0, [0])], 1, 2⟩, .none) := rfl
      simp only [recvPart, oneByte, hg, Option.getD_none, ha]
    simp only [List.map_cons, List.map_nil, List.foldl_cons, List.foldl_nil, Ev.step, hr]
    refine ⟨by simp [AMap.put, AMap.erase_of_get_none hg, h1], ?_⟩
    intro k hk
    rw [AMap.mem_keys_put] at hk
    rcases hk with hk | hk
    · exact ⟨n, by omega, hk⟩
    · obtain ⟨i, hi, he⟩ := h2 k hk; exact ⟨i, by omega, he⟩

/-- Nothing limits the number of entries: `n` parts of one byte leave `n` of them. -/
theorem C118_entries (sha : Bytes → Bytes) (n : Nat) (hn : n ≤ 2 ^ 32) :
    ∃ evs : List Ev, (arrived evs).length = n ∧ bytes (arrived evs) = n ∧ (after sha evs).length = n := by
  refine ⟨(List.range n).map fun i => .part (oneByte i), ?_, ?_, (entries_run sha n hn).1⟩
  · have : ∀ l : List Nat, (arrived (l.map fun i => Ev.part (oneByte i))).length = l.length := by
      intro l; induction l with
      | nil => rfl
      | cons a l ih => simp [arrived, ih]
    simp [this]
  · have : ∀ l : List Nat, bytes (arrived (l.map fun i => Ev.part (oneByte i))) = l.length := by
      intro l; induction l with
      | nil => rfl
      | cons a l ih =>
        simp only [bytes] at ih
        simp only [List.map_cons, arrived, bytes, List.sum_cons, ih]
        simp [oneByte]; omega
    simp [this]

example := C118_entries id 1000000 (by decide)

/-- Part `i` of a message announced with `n + 1` bytes: one byte first, then `d` bytes in its place. -/
def rewrite (h : Bytes) (n d i : Nat) : List Ev :=
  [.part ⟨h, n + 1, i, [0]⟩, .part ⟨h, n + 1, i, List.replicate d 0⟩]

theorem put_put_total (m : AMap Nat Bytes) (i : Nat) (a b : Bytes) (hi : m.get i = none) :
    total List.length ((m.put i a).put i b) = b.length + total List.length m := by
  rw [total_put]
  have h1 : AMap.erase m i = m := AMap.erase_of_get_none hi
  have : (m.put i a).erase i = m := by
    show AMap.erase ((i, a) :: AMap.erase m i) i = m
    rw [erase_cons, h1]; simp only [if_true]; exact h1
  rw [this]

theorem rewrite_step (sha : Bytes → Bytes) (h : Bytes) (n d i : Nat) (hi : i < n) (tbl : Table) (t : Transfer)
    (ht : (tbl.get h).getD (Transfer.new (n + 1)) = t) (hr : t.received = i) (hn : t.total = n + 1)
    (hh : heldBy t = i * d) (hk : ∀ k ∈ t.parts.keys, k < i) :
    ∃ t', ((rewrite h n d i).foldl (Ev.step sha) tbl).get h = some t' ∧ t'.received = i + 1 ∧ t'.total = n + 1 ∧
      heldBy t' = (i + 1) * d ∧ ∀ k ∈ t'.parts.keys, k < i + 1 := by
  have hg : t.parts.get i = none := by
    rw [AMap.get_eq_none_iff]; intro hc; exact absurd (hk i hc) (by omega)
  have h1 : addPart sha t i [0] h = (⟨t.parts.put i [0], i + 1, n + 1⟩, .none) := by
    simp only [addPart, hg, Option.isSome_none, Bool.false_eq_true, if_false, hr, hn]
    rw [if_neg (by simp; omega), if_neg (by simp; omega)]
    simp
  have hr1 : (recvPart sha tbl ⟨h, n + 1, i, [0]⟩).1 = tbl.put h ⟨t.parts.put i [0], i + 1, n + 1⟩ := by
    simp only [recvPart, ht, h1]
  have h2 : addPart sha ⟨t.parts.put i [0], i + 1, n + 1⟩ i (List.replicate d 0) h =
      (⟨(t.parts.put i [0]).put i (List.replicate d 0), i + 1, n + 1⟩, .none) := by
    simp [addPart, AMap.get_put_self]
  refine ⟨⟨(t.parts.put i [0]).put i (List.replicate d 0), i + 1, n + 1⟩, ?_, rfl, rfl, ?_, ?_⟩
  · simp only [rewrite, List.foldl_cons, List.foldl_nil, Ev.step, hr1]
    simp only [recvPart, AMap.get_put_self, Option.getD_some, h2]
  · rw [heldBy_total] at hh ⊢
    rw [put_put_total _ _ _ _ hg, hh, List.length_replicate, Nat.succ_mul]; omega
  · intro k hk'
    simp only [AMap.mem_keys_put] at hk'
    rcases hk' with hk' | hk' | hk'
    · omega
    · omega
    · have := hk k hk'; omega

theorem rewrite_run (sha : Bytes → Bytes) (h : Bytes) (n d : Nat) (i : Nat) (hi : i ≤ n) :
    ∃ t, ((after sha ((List.range i).flatMap (rewrite h n d))).get h).getD (Transfer.new (n + 1)) = t ∧
      (0 < i → (after sha ((List.range i).flatMap (rewrite h n d))).get h = some t) ∧
      t.received = i ∧ t.total = n + 1 ∧ heldBy t = i * d ∧ ∀ k ∈ t.parts.keys, k < i := by
  induction i with
  | zero => exact ⟨Transfer.new (n + 1), rfl, by simp, rfl, rfl, by simp [heldBy, Transfer.new], by simp [Transfer.new, AMap.keys]⟩
  | succ i ih =>
    obtain ⟨t, h1, _, h3, h4, h5, h6⟩ := ih (by omega)
    obtain ⟨t', h7, h8⟩ := rewrite_step sha h n d i (by omega) _ t h1 h3 h4 h5 h6
    rw [List.range_succ, List.flatMap_append, after, List.foldl_append, ← after]
    simp only [List.flatMap_cons, List.flatMap_nil, List.append_nil]
    rw [h7]
    exact ⟨t', rfl, fun _ => rfl, h8⟩

/-- A message announced with `n + 1` bytes can hold `n * d` of them, for every `n` and `d`. -/
theorem C118_overwritten (sha : Bytes → Bytes) (h : Bytes) (n d : Nat) (hn : 0 < n) :
    ∃ (evs : List Ev) (t : Transfer), (arrived evs).length = 2 * n ∧
      (∀ p ∈ arrived evs, p.hash = h ∧ p.total = n + 1 ∧ p.offset < n) ∧
      (after sha evs).get h = some t ∧ t.total = n + 1 ∧ heldBy t = n * d := by
  obtain ⟨t, _, h2, _, h4, h5, _⟩ := rewrite_run sha h n d n (by omega)
  have ha : ∀ l : List Nat, (arrived (l.flatMap (rewrite h n d))).length = 2 * l.length := by
    intro l; induction l with
    | nil => rfl
    | cons a l ih => rw [List.flatMap_cons, arrived_append, List.length_append, ih]; simp [rewrite, arrived]; omega
  have hm : ∀ l : List Nat, ∀ p ∈ arrived (l.flatMap (rewrite h n d)), p.hash = h ∧ p.total = n + 1 ∧ p.offset ∈ l := by
    intro l; induction l with
    | nil => simp [arrived]
    | cons a l ih =>
      intro p hp
      rw [List.flatMap_cons, arrived_append, List.mem_append] at hp
      rcases hp with hp | hp
      · simp only [rewrite, arrived, List.mem_cons, List.not_mem_nil, or_false] at hp
        rcases hp with rfl | rfl <;> simp
      · obtain ⟨a1, a2, a3⟩ := ih p hp; exact ⟨a1, a2, by simp [a3]⟩
  refine ⟨_, t, by simpa using ha (List.range n), ?_, h2 hn, h4, h5⟩
  intro p hp
  obtain ⟨a1, a2, a3⟩ := hm _ p hp
  exact ⟨a1, a2, by simpa using a3⟩

example := C118_overwritten id [1] 3 1000 (by decide)

/-! ## RLDP -/

/-- Never more than the largest allowed size for every different transfer that parts came for or that is awaited. -/
theorem C118_reserved_partial (f : Fec) (z : Zstd) (o : ROpts) (build : Build) (acts : List RAct) :
    reserved (rafter f z o build acts) ≤ o.maxAnswer * (rids acts).dedup.length := by
  have hw : Within o ([] ++ rids acts) (rafter f z o build acts) :=
    within_after z o build acts [] (RNode.init f)
      ⟨by simp [RNode.init, AMap.keys], by simp [RNode.init, AMap.keys], by simp [RNode.init]⟩
  rw [List.nil_append] at hw
  refine Nat.le_trans (reserved_le_length hw) (Nat.mul_le_mul_left _ ?_)
  have h1 : (rafter f z o build acts).ins.length = (rafter f z o build acts).ins.keys.length := by simp [AMap.keys]
  rw [h1]
  exact (List.subperm_of_subset hw.nodup fun x hx => List.mem_dedup.2 (hw.known x hx)).length_le

/-- A part of transfer `i` without data: it announces `total` bytes and is not even of the first part. -/
def bare (src total i : Nat) : RAct := .msg src (.part (idOf i) ⟨⟨0, 0, 0⟩, 1, total, 0, []⟩)

/-- State after some such parts. -/
theorem bare_run (f : Fec) (z : Zstd) (o : ROpts) (build : Build) (src n : Nat) (hn : n ≤ 2 ^ 32) (ho : 0 < o.maxAnswer) :
    reserved (rafter f z o build ((List.range n).map (bare src o.maxAnswer))) = n * o.maxAnswer ∧
    (∀ k ∈ (rafter f z o build ((List.range n).map (bare src o.maxAnswer))).table.keys, ∃ i < n, k = idOf i) ∧
    (∀ k ∈ (rafter f z o build ((List.range n).map (bare src o.maxAnswer))).ins.keys, ∃ i < n, k = idOf i) := by
  induction n with
  | zero => simp [rafter, RNode.init, reserved, AMap.keys]
  | succ n ih =>
    obtain ⟨h1, h2, h3⟩ := ih (by omega)
    rw [List.range_succ, List.map_append, rafter, List.foldl_append, ← rafter]
    generalize rafter f z o build ((List.range n).map (bare src o.maxAnswer)) = s at h1 h2 h3
    have new : ∀ {ν : Type} (m : AMap Bytes ν), (∀ k ∈ m.keys, ∃ i < n, k = idOf i) → m.get (idOf n) = none := by
      intro ν m hm
      rw [AMap.get_eq_none_iff]; intro hc
      obtain ⟨i, hi, he⟩ := hm _ hc
      exact absurd (idOf_inj (by omega) (by omega) he) (by omega)
    have ht := new s.table h2
    have hi := new s.ins h3
    have hst : ((Receiving.new f o.maxAnswer).step ⟨⟨0, 0, 0⟩, 1, o.maxAnswer, 0, []⟩) =
        (⟨⟨o.maxAnswer, 0, [], none, 0, some o.maxAnswer⟩, 1, false⟩, some .nothing) := by
      simp [Receiving.step, Receiving.new, Incoming.new, Incoming.processChunk, Incoming.partStep, Incoming.done]
      omega
    have hs : RAct.step z o build s (bare src o.maxAnswer n) =
        { s with
          table := s.table.put (idOf n) .incoming
          ins := (s.ins.put (idOf n) ⟨Receiving.new f o.maxAnswer, src, false⟩).put (idOf n)
            ⟨⟨⟨o.maxAnswer, 0, [], none, 0, some o.maxAnswer⟩, 1, false⟩, src, false⟩ } := by
      simp [RAct.step, bare, RNode.handle, ht, RNode.take, AMap.get_put_self, hst]
    simp only [List.map_cons, List.map_nil, List.foldl_cons, List.foldl_nil, hs]
    refine ⟨?_, ?_, ?_⟩
    · have he : (s.ins.put (idOf n) ⟨Receiving.new f o.maxAnswer, src, false⟩).erase (idOf n) = s.ins := by
        show AMap.erase ((idOf n, _) :: AMap.erase s.ins (idOf n)) (idOf n) = s.ins
        rw [erase_cons, AMap.erase_of_get_none hi]; simp only [if_true]
        exact AMap.erase_of_get_none hi
      have hp : ∀ T : InTask f, (s.ins.put (idOf n) ⟨Receiving.new f o.maxAnswer, src, false⟩).put (idOf n) T =
          (idOf n, T) :: s.ins := by
        intro T
        show (idOf n, T) :: AMap.erase _ (idOf n) = _
        rw [he]
      unfold reserved
      simp only [hp, List.map_cons, List.sum_cons, AMap.get_put_self]
      have hsum : (s.ins.map fun e => if (s.table.put (idOf n) .incoming).get e.1 = some Slot.incoming ∧ e.2.rcv.left = false
          then e.2.rcv.transfer.totalSize.getD 0 else 0).sum = reserved s := by
        unfold reserved
        congr 1
        apply List.map_congr_left
        intro e he
        have : e.1 ≠ idOf n := by
          intro hc
          have : idOf n ∈ s.ins.keys := hc ▸ List.mem_map_of_mem he
          rw [AMap.get_eq_none_iff] at hi; exact hi this
        rw [AMap.get_put_ne _ _ this]
      simp only [and_self, if_true, Option.getD_some]
      rw [hsum, h1, Nat.succ_mul]; omega
    · intro k hk
      rw [AMap.mem_keys_put] at hk
      rcases hk with hk | hk
      · exact ⟨n, by omega, hk⟩
      · obtain ⟨i, hi, he⟩ := h2 k hk; exact ⟨i, by omega, he⟩
    · intro k hk
      simp only [AMap.mem_keys_put] at hk
      rcases hk with hk | hk | hk
      · exact ⟨n, by omega, hk⟩
      · exact ⟨n, by omega, hk⟩
      · obtain ⟨i, hi, he⟩ := h3 k hk; exact ⟨i, by omega, he⟩

theorem bare_bytes (src total : Nat) (l : List Nat) : rbytes (l.map (bare src total)) = 0 ∧
    rids (l.map (bare src total)) = l.map idOf := by
  induction l with
  | nil => exact ⟨rfl, rfl⟩
  | cons a l ih => simp [bare, rbytes, rids] at ih ⊢; exact ih

/-- `n` parts without data from one peer reserve `n` times the largest allowed size. -/
theorem C118_reserved (f : Fec) (z : Zstd) (o : ROpts) (build : Build) (src n : Nat) (hn : n ≤ 2 ^ 32)
    (ho : 0 < o.maxAnswer) :
    ∃ acts : List RAct, acts.length = n ∧ rbytes acts = 0 ∧ (∀ a ∈ acts, ∃ id m, a = .msg src (.part id m) ∧ id.length = 32) ∧
      reserved (rafter f z o build acts) = n * o.maxAnswer := by
  refine ⟨(List.range n).map (bare src o.maxAnswer), by simp, (bare_bytes _ _ _).1, ?_, (bare_run f z o build src n hn ho).1⟩
  intro a ha
  obtain ⟨i, _, rfl⟩ := List.mem_map.1 ha
  exact ⟨_, _, rfl, idOf_length i⟩

/-- The default options (rldp/node.rs:58): a thousand parts without data reserve ten gigabytes. -/
example (f : Fec) (z : Zstd) (build : Build) :=
  C118_reserved f z ⟨[], false, 10 * 1024 * 1024⟩ build 7 1000 (by decide) (by decide)

theorem C118_full_false : ¬ C118_full := by
  intro h
  have h3 := h.2.2 ⟨Unit, fun _ => (), fun d _ _ => (d, none), fun _ => 1, fun d _ => d, fun _ n => n⟩ ⟨id, some⟩
    ⟨[], false, 10 * 1024 * 1024⟩ .release
  obtain ⟨acts, _, hb, _, hr⟩ := C118_reserved ⟨Unit, fun _ => (), fun d _ _ => (d, none), fun _ => 1, fun d _ => d, fun _ n => n⟩
    ⟨id, some⟩ ⟨[], false, 10 * 1024 * 1024⟩ .release 7 1 (by decide) (by decide)
  have := h3 acts
  rw [hb, hr] at this
  simp at this

/-- The second part of the claim fails as well. -/
theorem C118_full_false_announced : ¬ ∀ (sha : Bytes → Bytes) (evs : List Ev) (h : Bytes) (t : Transfer),
    (after sha evs).get h = some t → heldBy t ≤ t.total := by
  intro h
  obtain ⟨evs, t, _, _, h1, h2, h3⟩ := C118_overwritten id [1] 1 1000 (by decide)
  have := h id evs [1] t h1
  rw [h2, h3] at this
  exact absurd this (by decide)

end Verif.Memory
