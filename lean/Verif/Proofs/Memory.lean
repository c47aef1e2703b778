import Verif.Proofs.AMap
import Verif.Spec.Memory

/-!
# Lemmas for C118: what is held for unfinished transfers
-/
namespace Verif.Memory
open Verif.Tl Verif.Transfer Verif.Rldp Verif.RldpTable

theorem arrived_append (a b : List Ev) : arrived (a ++ b) = arrived a ++ arrived b := by
  induction a with
  | nil => rfl
  | cons e a ih => cases e <;> simp [arrived, ih]

section sums
variable {κ ν : Type} [DecidableEq κ]

/-- Size of a map when every value has a size. -/
def total (g : ν → Nat) (m : AMap κ ν) : Nat := (List.map (fun e => g e.2) m).sum

omit [DecidableEq κ] in
theorem total_cons (g : ν → Nat) (e : κ × ν) (m : AMap κ ν) :
    total (κ := κ) g (e :: m) = g e.2 + total g m := by simp [total]

theorem erase_cons (e : κ × ν) (m : AMap κ ν) (k : κ) :
    AMap.erase (e :: m) k = if e.1 = k then AMap.erase m k else e :: AMap.erase m k := by
  by_cases h : e.1 = k <;> simp [AMap.erase, h]

theorem total_erase_le (g : ν → Nat) (m : AMap κ ν) (k : κ) : total g (m.erase k) ≤ total g m := by
  induction m with
  | nil => simp [AMap.erase]
  | cons e m ih =>
    rw [erase_cons, total_cons]
    split
    · omega
    · rw [total_cons]; omega

theorem total_erase_get (g : ν → Nat) (m : AMap κ ν) (k : κ) (v : ν) (h : m.get k = some v) :
    g v + total g (m.erase k) ≤ total g m := by
  induction m with
  | nil => simp at h
  | cons e m ih =>
    obtain ⟨k', v'⟩ := e
    rw [AMap.get_cons] at h
    rw [erase_cons, total_cons]
    by_cases hk : k' = k
    · simp only [hk, if_true, Option.some.injEq] at h
      have := total_erase_le g m k
      simp only [hk, if_true]
      subst h; omega
    · simp only [hk] at h
      have := ih h
      simp only [hk]
      rw [if_neg (by simp), total_cons]; simp only; omega

theorem total_put (g : ν → Nat) (m : AMap κ ν) (k : κ) (v : ν) :
    total g (m.put k v) = g v + total g (m.erase k) := by
  simp [AMap.put, total_cons]

theorem total_put_get (g : ν → Nat) (m : AMap κ ν) (k : κ) (v w : ν) (h : m.get k = some v) :
    total g (m.put k w) + g v ≤ total g m + g w := by
  rw [total_put]; have := total_erase_get g m k v h; omega

theorem total_put_le (g : ν → Nat) (m : AMap κ ν) (k : κ) (v : ν) : total g (m.put k v) ≤ total g m + g v := by
  rw [total_put]; have := total_erase_le g m k; omega

omit [DecidableEq κ] in
theorem total_le_mul (g : ν → Nat) (b : Nat) (m : AMap κ ν) (h : ∀ e ∈ m, g e.2 ≤ b) :
    total g m ≤ b * m.length := by
  induction m with
  | nil => simp [total]
  | cons e m ih =>
    rw [total_cons, List.length_cons, Nat.mul_succ]
    have := h e (by simp)
    have := ih (fun e he => h e (by simp [he]))
    omega

theorem length_erase_le (m : AMap κ ν) (k : κ) : (m.erase k).length ≤ m.length :=
  List.length_filter_le _ _

theorem length_put_le (m : AMap κ ν) (k : κ) (v : ν) : (m.put k v).length ≤ m.length + 1 := by
  have := length_erase_le m k
  simp [AMap.put]; omega

end sums

theorem heldBy_total (t : Transfer) : heldBy t = total List.length t.parts := rfl
theorem held_total (tbl : Table) : held tbl = total heldBy tbl := rfl

/-- A part adds at most its data to what a transfer holds. -/
theorem addPart_held (sha : Bytes → Bytes) (t : Transfer) (o : Nat) (d id : Bytes) :
    heldBy (addPart sha t o d id).1 ≤ heldBy t + d.length := by
  have hp : (addPart sha t o d id).1.parts = t.parts.put o d := by
    simp only [addPart]; repeat' split
    all_goals rfl
  rw [heldBy_total, heldBy_total, hp]
  exact total_put_le _ _ _ _

theorem recvPart_held (sha : Bytes → Bytes) (tbl : Table) (p : Transfer.Part) :
    held (recvPart sha tbl p).1 ≤ held tbl + p.data.length := by
  have key : held (tbl.put p.hash (addPart sha ((tbl.get p.hash).getD (Transfer.new p.total)) p.offset p.data p.hash).1)
      ≤ held tbl + p.data.length := by
    simp only [held_total]
    cases h : tbl.get p.hash with
    | none =>
      have h1 := addPart_held sha (Transfer.new p.total) p.offset p.data p.hash
      have h2 := total_put_le heldBy tbl p.hash (addPart sha (Transfer.new p.total) p.offset p.data p.hash).1
      have h3 : heldBy (Transfer.new p.total) = 0 := rfl
      simp only [Option.getD_none]; omega
    | some t =>
      have h1 := addPart_held sha t p.offset p.data p.hash
      have h2 := total_put_get heldBy tbl p.hash t (addPart sha t p.offset p.data p.hash).1 h
      simp only [Option.getD_some]; omega
  have he : held (tbl.erase p.hash) ≤ held tbl := total_erase_le _ _ _
  simp only [recvPart]
  split
  · exact key
  · exact key
  · exact Nat.le_trans he (Nat.le_add_right _ _)

theorem recvPart_length (sha : Bytes → Bytes) (tbl : Table) (p : Transfer.Part) :
    (recvPart sha tbl p).1.length ≤ tbl.length + 1 := by
  simp only [recvPart]
  split
  · exact length_put_le _ _ _
  · exact length_put_le _ _ _
  · exact Nat.le_trans (length_erase_le _ _) (Nat.le_add_right _ _)

theorem steps_bound (sha : Bytes → Bytes) (evs : List Ev) (tbl : Table) :
    held (evs.foldl (Ev.step sha) tbl) ≤ held tbl + bytes (arrived evs) ∧
    (evs.foldl (Ev.step sha) tbl).length ≤ tbl.length + (arrived evs).length := by
  induction evs generalizing tbl with
  | nil => simp [arrived, bytes]
  | cons e evs ih =>
    rw [List.foldl_cons]
    have h := ih (Ev.step sha tbl e)
    cases e with
    | part p =>
      have h1 := recvPart_held sha tbl p
      have h2 := recvPart_length sha tbl p
      simp only [Ev.step, arrived, bytes, List.map_cons, List.sum_cons, List.length_cons] at h ⊢
      omega
    | expire id =>
      have h1 : held (tbl.erase id) ≤ held tbl := total_erase_le _ _ _
      have h2 := length_erase_le tbl id
      simp only [Ev.step, Transfer.expire, arrived, bytes] at h ⊢
      omega

/-! ### One ADNL transfer -/

/-- What arrived for one hash. -/
theorem recvPart_get (sha : Bytes → Bytes) (tbl : Table) (p : Transfer.Part) (h : Bytes) (t : Transfer)
    (ht : (recvPart sha tbl p).1.get h = some t) :
    (h ≠ p.hash ∧ tbl.get h = some t) ∨
    (h = p.hash ∧
      t = (addPart sha ((tbl.get p.hash).getD (Transfer.new p.total)) p.offset p.data p.hash).1 ∧
      ((addPart sha ((tbl.get p.hash).getD (Transfer.new p.total)) p.offset p.data p.hash).2 = .none ∨
        (addPart sha ((tbl.get p.hash).getD (Transfer.new p.total)) p.offset p.data p.hash).2 = .hang)) := by
  by_cases hh : h = p.hash
  · right
    subst hh
    refine ⟨rfl, ?_⟩
    generalize hr : addPart sha ((tbl.get p.hash).getD (Transfer.new p.total)) p.offset p.data p.hash = r at ht ⊢
    simp only [recvPart, hr] at ht
    split at ht
    · rename_i h2; rw [AMap.get_put_self] at ht; exact ⟨(Option.some.inj ht).symm, Or.inl h2⟩
    · rename_i h2; rw [AMap.get_put_self] at ht; exact ⟨(Option.some.inj ht).symm, Or.inr h2⟩
    · rw [AMap.get_erase] at ht; simp at ht
  · left
    refine ⟨hh, ?_⟩
    simp only [recvPart] at ht
    split at ht
    · rwa [AMap.get_put_ne _ _ hh] at ht
    · rwa [AMap.get_put_ne _ _ hh] at ht
    · rwa [AMap.get_erase, if_neg hh] at ht

theorem addPart_total (sha : Bytes → Bytes) (t : Transfer) (o : Nat) (d id : Bytes) :
    (addPart sha t o d id).1.total = t.total := by
  simp only [addPart]; repeat' split
  all_goals rfl

theorem addPart_parts (sha : Bytes → Bytes) (t : Transfer) (o : Nat) (d id : Bytes) :
    (addPart sha t o d id).1.parts = t.parts.put o d := by
  simp only [addPart]; repeat' split
  all_goals rfl

/-- The parts of message `h` among those that arrived. -/
def partsOf (h : Bytes) (ps : List Transfer.Part) : List Transfer.Part := ps.filter fun p => p.hash = h

/-- What is known of an entry after some parts arrived. -/
structure Known (ps : List Transfer.Part) (h : Bytes) (t : Transfer) : Prop where
  held : heldBy t ≤ bytes (partsOf h ps)
  announced : ∃ p ∈ ps, p.hash = h ∧ p.total = t.total
  offsets : ∀ o ∈ t.parts.keys, ∃ p ∈ ps, p.hash = h ∧ p.offset = o

theorem Known.mono {ps : List Transfer.Part} {h : Bytes} {t : Transfer} (k : Known ps h t) (p : Transfer.Part) :
    Known (ps ++ [p]) h t := by
  refine ⟨?_, ?_, ?_⟩
  · have := k.held
    simp only [partsOf, List.filter_append, bytes, List.map_append, List.sum_append] at this ⊢; omega
  · obtain ⟨q, hq, h1⟩ := k.announced; exact ⟨q, by simp [hq], h1⟩
  · intro o ho; obtain ⟨q, hq, h1⟩ := k.offsets o ho; exact ⟨q, by simp [hq], h1⟩

theorem known_step (sha : Bytes → Bytes) (tbl : Table) (ps : List Transfer.Part) (p : Transfer.Part)
    (hk : ∀ h t, tbl.get h = some t → Known ps h t) (h : Bytes) (t : Transfer)
    (ht : (recvPart sha tbl p).1.get h = some t) : Known (ps ++ [p]) h t := by
  rcases recvPart_get sha tbl p h t ht with ⟨_, h1⟩ | ⟨hh, h1, _⟩
  · exact (hk h t h1).mono p
  · subst hh; subst h1
    have ha := addPart_held sha ((tbl.get p.hash).getD (Transfer.new p.total)) p.offset p.data p.hash
    have hs : bytes (partsOf p.hash (ps ++ [p])) = bytes (partsOf p.hash ps) + p.data.length := by
      simp [partsOf, bytes]
    cases hg : tbl.get p.hash with
    | none =>
      simp only [hg, Option.getD_none] at ha ⊢
      have h0 : heldBy (Transfer.new p.total) = 0 := rfl
      refine ⟨by omega, ⟨p, by simp, rfl, ?_⟩, ?_⟩
      · rw [addPart_total]; rfl
      · intro o ho
        rw [addPart_parts, AMap.mem_keys_put] at ho
        rcases ho with ho | ho
        · exact ⟨p, by simp, rfl, ho.symm⟩
        · simp [Transfer.new, AMap.keys] at ho
    | some u =>
      have k := hk _ _ hg
      simp only [hg, Option.getD_some] at ha ⊢
      have := k.held
      refine ⟨by omega, ?_, ?_⟩
      · obtain ⟨q, hq, h1, h2⟩ := k.announced
        exact ⟨q, by simp [hq], h1, by rw [addPart_total]; exact h2⟩
      · intro o ho
        rw [addPart_parts, AMap.mem_keys_put] at ho
        rcases ho with ho | ho
        · exact ⟨p, by simp, rfl, ho.symm⟩
        · obtain ⟨q, hq, h1⟩ := k.offsets o ho; exact ⟨q, by simp [hq], h1⟩

theorem known_after (sha : Bytes → Bytes) (evs : List Ev) (tbl : Table) (ps : List Transfer.Part)
    (hk : ∀ h t, tbl.get h = some t → Known ps h t) (h : Bytes) (t : Transfer)
    (ht : (evs.foldl (Ev.step sha) tbl).get h = some t) : Known (ps ++ arrived evs) h t := by
  induction evs generalizing tbl ps with
  | nil => simpa [arrived] using hk h t ht
  | cons e evs ih =>
    cases e with
    | part p =>
      have := ih (recvPart sha tbl p).1 (ps ++ [p]) (known_step sha tbl ps p hk) ht
      simpa [arrived] using this
    | expire id =>
      refine ih (tbl.erase id) ps ?_ ht
      intro h t h1
      rw [AMap.get_erase] at h1
      split at h1
      · cases h1
      · exact hk h t h1

/-! ### No offset twice -/

/-- An entry holds no more than it counted. -/
def Counted (t : Transfer) : Prop := heldBy t ≤ t.total ∧ (t.received < t.total → heldBy t ≤ t.received)

theorem addPart_counted (sha : Bytes → Bytes) (t : Transfer) (o : Nat) (d id : Bytes) (ht : Counted t ∨ heldBy t = 0 ∧ t.received = 0)
    (hn : t.parts.get o = none)
    (hr : (addPart sha t o d id).2 = .none ∨ (addPart sha t o d id).2 = .hang) : Counted (addPart sha t o d id).1 := by
  have ha := addPart_held sha t o d id
  simp only [addPart, hn, Option.isSome_none, Bool.false_eq_true, if_false] at ha hr ⊢
  have hc : (t.received < t.total → heldBy t ≤ t.received) ∧ (t.received ≤ t.total → heldBy t ≤ t.total) := by
    rcases ht with h | h
    · exact ⟨h.2, fun _ => h.1⟩
    · exact ⟨fun _ => by omega, fun _ => by omega⟩
  by_cases h1 : t.received + d.length = t.total
  · rw [if_pos h1] at ha ⊢
    simp only at ha
    refine ⟨?_, ?_⟩
    · rcases Nat.lt_or_ge t.received t.total with h2 | h2
      · have := hc.1 h2; simp only; omega
      · have := hc.2 (by omega); simp only; omega
    · simp only; intro h; omega
  · rw [if_neg h1] at ha hr ⊢
    by_cases h2 : t.received + d.length > t.total
    · rw [if_pos h2] at hr; simp at hr
    · rw [if_neg h2] at ha ⊢
      simp only at ha
      have := hc.1 (by omega)
      exact ⟨by simp only; omega, fun _ => by simp only; omega⟩

theorem counted_after (sha : Bytes → Bytes) (evs : List Ev) (tbl : Table) (ps : List Transfer.Part)
    (hk : ∀ h t, tbl.get h = some t → Known ps h t ∧ Counted t)
    (hn : ((ps ++ arrived evs).map fun p => (p.hash, p.offset)).Nodup) (h : Bytes) (t : Transfer)
    (ht : (evs.foldl (Ev.step sha) tbl).get h = some t) : Counted t := by
  induction evs generalizing tbl ps with
  | nil => exact (hk h t ht).2
  | cons e evs ih =>
    cases e with
    | part p =>
      refine ih (recvPart sha tbl p).1 (ps ++ [p]) ?_ ?_ ht
      · intro h t h1
        refine ⟨known_step sha tbl ps p (fun h t h2 => (hk h t h2).1) h t h1, ?_⟩
        rcases recvPart_get sha tbl p h t h1 with ⟨_, h2⟩ | ⟨_, h2, h3⟩
        · exact (hk h t h2).2
        · subst h2
          refine addPart_counted sha _ _ _ _ ?_ ?_ h3
          · cases hg : tbl.get p.hash with
            | none => right; exact ⟨rfl, rfl⟩
            | some u => left; exact (hk _ _ hg).2
          · cases hg : tbl.get p.hash with
            | none => rfl
            | some u =>
              rw [Option.getD_some, AMap.get_eq_none_iff]
              intro hc
              obtain ⟨q, hq, h4, h5⟩ := (hk _ _ hg).1.offsets _ hc
              rw [arrived, List.map_append, List.nodup_append] at hn
              refine hn.2.2 (q.hash, q.offset) (List.mem_map_of_mem hq) (p.hash, p.offset) (by simp) ?_
              rw [h4, h5]
      · simpa [arrived] using hn
    | expire id =>
      refine ih (tbl.erase id) ps ?_ hn ht
      intro h t h1
      rw [AMap.get_erase] at h1
      split at h1
      · cases h1
      · exact hk h t h1

/-! ### RLDP -/

section rldp
variable {f : Fec}

/-- Every receiving task of the node has this limit and keeps to it; and belongs to one of the ids. -/
structure Within (o : ROpts) (ids : List Bytes) (s : RNode f) : Prop where
  nodup : s.ins.keys.Nodup
  known : ∀ id ∈ s.ins.keys, id ∈ ids
  max : ∀ e ∈ s.ins, e.2.rcv.transfer.maxSize = o.maxAnswer ∧ e.2.rcv.transfer.totalSize.getD 0 ≤ o.maxAnswer

theorem decodePart_sizes (t : Incoming f) (total : Nat) (dec : f.Dec) (m : Rldp.Part) :
    (t.decodePart total dec m).1.maxSize = t.maxSize ∧ (t.decodePart total dec m).1.totalSize = t.totalSize := by
  simp only [Incoming.decodePart]; repeat' split
  all_goals exact ⟨rfl, rfl⟩

theorem partStep_sizes (t : Incoming f) (total : Nat) (m : Rldp.Part) :
    (t.partStep total m).1.maxSize = t.maxSize ∧ (t.partStep total m).1.totalSize = t.totalSize := by
  simp only [Incoming.partStep]; repeat' split
  all_goals first | exact ⟨rfl, rfl⟩ | exact decodePart_sizes _ _ _ _

theorem rcv_sizes (r : Receiving f) (m : Rldp.Part) (n : Nat)
    (h : r.transfer.maxSize = n ∧ r.transfer.totalSize.getD 0 ≤ n) :
    (r.step m).1.transfer.maxSize = n ∧ (r.step m).1.transfer.totalSize.getD 0 ≤ n := by
  simp only [Receiving.step]
  split
  · exact h
  · simp only [Incoming.processChunk]
    split
    · split
      · exact h
      · rw [(partStep_sizes _ _ _).1, (partStep_sizes _ _ _).2]; exact h
    · split
      · exact h
      · rw [(partStep_sizes _ _ _).1, (partStep_sizes _ _ _).2]
        simp only [Option.getD_some]; omega

theorem setState_ins (s : RNode f) (id : Bytes) (g : OutState → OutState) : (s.setState id g).ins = s.ins := by
  simp only [RNode.setState]; split <;> rfl

theorem take_ins (s : RNode f) (id : Bytes) (m : Rldp.Part) :
    (s.take id m).1.ins = match s.ins.get id with
      | none => s.ins
      | some t => s.ins.put id { t with rcv := (t.rcv.step m).1 } := by
  simp only [RNode.take]
  cases s.ins.get id with
  | none => rfl
  | some t => simp only; split <;> simp [setState_ins]

theorem Within.weaken {o : ROpts} {ids : List Bytes} {s s' : RNode f} (h : Within o ids s) (hi : s'.ins = s.ins)
    (ids' : List Bytes) : Within o (ids ++ ids') s' := by
  refine ⟨by rw [hi]; exact h.nodup, ?_, by rw [hi]; exact h.max⟩
  rw [hi]; intro id hid; simp [h.known id hid]

theorem Within.put {o : ROpts} {ids : List Bytes} {s s' : RNode f} (h : Within o ids s) (id : Bytes) (t : InTask f)
    (hid : id ∈ ids) (ht : t.rcv.transfer.maxSize = o.maxAnswer ∧ t.rcv.transfer.totalSize.getD 0 ≤ o.maxAnswer)
    (hi : s'.ins = s.ins.put id t) : Within o ids s' := by
  refine ⟨by rw [hi]; exact AMap.nodup_put h.nodup _ _, ?_, ?_⟩
  · rw [hi]; intro k hk
    rw [AMap.mem_keys_put] at hk
    rcases hk with hk | hk
    · exact hk ▸ hid
    · exact h.known k hk
  · rw [hi]; intro e he
    rw [AMap.mem_put] at he
    rcases he with he | he
    · subst he; exact ht
    · exact h.max e he.1

theorem Within.take {o : ROpts} {ids : List Bytes} {s : RNode f} (h : Within o ids s) (id : Bytes) (m : Rldp.Part) :
    Within o ids (s.take id m).1 := by
  have hi := take_ins s id m
  cases hg : s.ins.get id with
  | none =>
    rw [hg] at hi
    have := h.weaken hi []
    simpa using this
  | some t =>
    rw [hg] at hi
    refine h.put id _ ?_ ?_ hi
    · exact h.known id (by rw [← AMap.get_isSome_iff, hg]; rfl)
    · exact rcv_sizes _ _ _ (h.max _ (AMap.mem_of_get hg))

theorem Within.mono {o : ROpts} {ids : List Bytes} {s : RNode f} (h : Within o ids s) (ids' : List Bytes) :
    Within o (ids ++ ids') s := h.weaken rfl ids'

theorem within_step (z : Zstd) (o : ROpts) (build : Build) (ids : List Bytes) (s : RNode f) (a : RAct)
    (h : Within o ids s) : Within o (ids ++ rids [a]) (RAct.step z o build s a) := by
  cases a with
  | msg src m =>
    cases m with
    | part id m =>
      simp only [RAct.step, RNode.handle]
      split
      · exact (h.take id m).mono _
      · exact h.mono _
      · refine Within.take ?_ id m
        exact (h.mono _).put id _ (by simp [rids]) ⟨rfl, by simp [Receiving.new, Incoming.new]⟩ rfl
    | confirm id p n =>
      simp only [RAct.step, RNode.handle]
      split
      · exact h.weaken (setState_ins _ _ _) _
      · exact h.mono _
    | complete id p =>
      simp only [RAct.step, RNode.handle]
      split
      · exact h.weaken (setState_ins _ _ _) _
      · exact h.mono _
  | ask peer id qid data timeout =>
    exact (h.mono _).put (negateId id) ⟨Receiving.new f o.maxAnswer, peer, true⟩ (by simp [rids])
      ⟨rfl, by simp [Receiving.new, Incoming.new]⟩ rfl
  | send id a =>
    refine h.weaken ?_ _
    simp only [RAct.step, RNode.send]; split <;> rfl
  | serve id =>
    refine h.weaken ?_ _
    simp only [RAct.step, RNode.serve]; repeat' split
    all_goals rfl
  | finish id =>
    refine h.weaken ?_ _
    simp only [RAct.step, RNode.finish]; repeat' split
    all_goals rfl
  | quit id =>
    refine h.weaken ?_ _
    simp only [RAct.step, RNode.quit]; repeat' split
    all_goals rfl
  | expire id =>
    refine h.weaken ?_ _
    simp only [RAct.step, RNode.expire]; repeat' split
    all_goals rfl

theorem rids_append (a b : List RAct) : rids (a ++ b) = rids a ++ rids b := by
  induction a with
  | nil => rfl
  | cons x a ih =>
    cases x with
    | msg src m => cases m <;> simp [rids, ih]
    | _ => simp [rids, ih]

theorem within_after (z : Zstd) (o : ROpts) (build : Build) (acts : List RAct) (ids : List Bytes) (s : RNode f)
    (h : Within o ids s) : Within o (ids ++ rids acts) (acts.foldl (RAct.step z o build) s) := by
  induction acts generalizing ids s with
  | nil => simpa [rids] using h
  | cons a acts ih =>
    have := ih _ _ (within_step z o build ids s a h)
    have e : rids (a :: acts) = rids [a] ++ rids acts := rids_append [a] acts
    rw [e, ← List.append_assoc]; exact this

theorem reserved_le_length {o : ROpts} {ids : List Bytes} {s : RNode f} (h : Within o ids s) :
    reserved s ≤ o.maxAnswer * s.ins.length := by
  have : ∀ l : List (Bytes × InTask f), (∀ e ∈ l, e.2.rcv.transfer.totalSize.getD 0 ≤ o.maxAnswer) →
      (l.map fun e => if s.table.get e.1 = some .incoming ∧ e.2.rcv.left = false
        then e.2.rcv.transfer.totalSize.getD 0 else 0).sum ≤ o.maxAnswer * l.length := by
    intro l
    induction l with
    | nil => simp
    | cons e l ih =>
      intro hl
      have h1 := ih (fun e he => hl e (by simp [he]))
      have h2 := hl e (by simp)
      rw [List.map_cons, List.sum_cons, List.length_cons, Nat.mul_succ]
      split <;> omega
  exact this _ fun e he => (h.max e he).2

end rldp

end Verif.Memory
