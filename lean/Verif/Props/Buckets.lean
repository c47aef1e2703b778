import Verif.Proofs.Buckets

/-!
# C25, C26, C27: proximity, node lookup and the routing table of the DHT
-/
namespace Verif.Buckets
open Verif.Xor

/-- C25: the bucket number is the number of leading bits shared, capped at 255 (only identical keys
share more). -/
theorem C25_affinity_is_common_prefix (a b : Bytes) (ha : a.length = 32) (hb : b.length = 32) :
    affinity a b = min 255 (commonPrefix (bits a) (bits b)) := by
  by_cases h : a = b
  · subst h
    rw [affinity, affinityFrom_self, commonPrefix_self, bits_length, ha]
    rfl
  · rw [affinity, affinityFrom_eq 0 a b (by omega) h]
    have hne : bits a ≠ bits b := fun e => h (bits_inj (by omega) e)
    obtain ⟨p, x, s, s', h1, -, h3⟩ := commonPrefix_split (by rw [bits_length, bits_length]; omega) hne
    have := bits_length a
    rw [h1] at this
    simp only [List.length_append, List.length_cons] at this
    omega

example : affinity (List.replicate 32 5) (5 :: 4 :: List.replicate 30 5) = 15 :=
  (C25_affinity_is_common_prefix (List.replicate 32 5) (5 :: 4 :: List.replicate 30 5) (by simp) (by simp)).trans
    (by decide +kernel)

/-- C25: it is symmetric. -/
theorem C25_affinity_symmetric (a b : Bytes) (ha : a.length = 32) (hb : b.length = 32) :
    affinity a b = affinity b a := by
  rw [C25_affinity_is_common_prefix a b ha hb, C25_affinity_is_common_prefix b a hb ha,
    commonPrefix_comm]

example : affinity (List.replicate 32 5) (5 :: 4 :: List.replicate 30 5) =
    affinity (5 :: 4 :: List.replicate 30 5) (List.replicate 32 5) :=
  C25_affinity_symmetric _ _ (by simp) (by simp)

theorem dist_comm (a b : Bytes) : dist a b = dist b a := by
  unfold dist
  congr 1
  rw [List.zipWith_comm]
  congr 1
  funext x y
  cases x <;> cases y <;> rfl

/-- C25: of two nodes the one sharing more leading bits with the target is strictly closer to it. -/
theorem C25_longer_prefix_is_closer (t a b : Bytes) (ht : t.length = 32) (ha : a.length = 32)
    (hb : b.length = 32) (h : commonPrefix (bits t) (bits b) < commonPrefix (bits t) (bits a)) :
    dist t a < dist t b := by
  have hl : (bits t).length = (bits b).length := by rw [bits_length, bits_length]; omega
  have hne : bits t ≠ bits b := by
    intro e
    have h1 := commonPrefix_self (bits t)
    rw [← e, h1] at h
    have h2 := bits_length t
    have h3 := C25_affinity_is_common_prefix t a ht ha
    have : commonPrefix (bits t) (bits a) ≤ (bits t).length := by
      have : ∀ x y : List Bool, commonPrefix x y ≤ x.length := by
        intro x
        induction x with
        | nil => intro y; cases y <;> simp [commonPrefix]
        | cons b x ih =>
          intro y
          cases y with
          | nil => simp [commonPrefix]
          | cons d y =>
            simp only [commonPrefix, List.length_cons]
            split
            · have := ih y; omega
            · omega
      exact this _ _
    omega
  obtain ⟨p, x, s, s', h1, h2, h3⟩ := commonPrefix_split hl hne
  -- the bits of `a` agree with those of `t` up to and including the first difference of `b`
  have hta := commonPrefix_ge (a := bits t) (b := bits a) (n := p.length + 1) (by omega)
  have hla : (bits a).length = (bits t).length := by rw [bits_length, bits_length]; omega
  rw [h1] at hta
  have hpx : (p ++ x :: s).take (p.length + 1) = p ++ [x] := by
    rw [show p ++ x :: s = (p ++ [x]) ++ s by simp, List.take_append_of_le_length (by simp),
      List.take_of_length_le (by simp)]
  rw [hpx] at hta
  have hA : bits a = (p ++ [x]) ++ (bits a).drop (p.length + 1) := by
    rw [hta, List.take_append_drop]
  generalize (bits a).drop (p.length + 1) = s'' at hA
  unfold dist
  rw [h1, h2, hA]
  have hzip : ∀ u v : List Bool, List.zipWith xor (p ++ u) (p ++ v) =
      List.zipWith xor p p ++ List.zipWith xor u v := by
    intro u v; rw [List.zipWith_append rfl]
  rw [show (p ++ [x]) ++ s'' = p ++ x :: s'' by simp, hzip, hzip]
  simp only [List.zipWith_cons_cons]
  rw [show (x ^^ x) = false by cases x <;> rfl, show (x ^^ !x) = true by cases x <;> rfl]
  apply value_split_lt
  have e1 := congrArg List.length h1
  have e2 := congrArg List.length h2
  have e3 := congrArg List.length hA
  simp only [List.length_append, List.length_cons, List.length_nil] at e1 e2 e3
  simp only [List.length_zipWith]
  omega

example : dist (List.replicate 32 5) (5 :: 4 :: List.replicate 30 5) <
    dist (List.replicate 32 5) (5 :: 6 :: List.replicate 30 5) :=
  C25_longer_prefix_is_closer _ _ _ (by simp) (by simp) (by simp) (by decide +kernel)

/-! ### The table -/

/-- Insertion of many nodes. -/
def insertAll (t : Table) (l : List (Bytes × Node)) : Table := l.foldl (fun t e => insert t e.1 e.2) t

/-- Every id is in the bucket of its affinity, once. -/
structure Ok (t : Table) : Prop where
  place : ∀ j id n, (id, n) ∈ t.bucket j → affinity t.localId id = j
  nodup : ∀ j, (AMap.keys (t.bucket j)).Nodup

theorem insertInto_mem {m : AMap Bytes Node} {id : Bytes} {n : Node} {e : Bytes × Node}
    (h : e ∈ insertInto m id n) : e ∈ m ∨ e = (id, n) := by
  unfold insertInto at h
  split at h
  · split at h
    · rcases AMap.mem_put.mp h with h | h
      · exact .inr h
      · exact .inl h.1
    · exact .inl h
  · rcases AMap.mem_put.mp h with h | h
    · exact .inr h
    · exact .inl h.1

theorem insertInto_nodup {m : AMap Bytes Node} (h : (AMap.keys m).Nodup) (id : Bytes) (n : Node) :
    (AMap.keys (insertInto m id n)).Nodup := by
  unfold insertInto
  split
  · split
    · exact AMap.nodup_put h id n
    · exact h
  · exact AMap.nodup_put h id n

theorem insert_ok {t : Table} (h : Ok t) (id : Bytes) (n : Node) : Ok (insert t id n) := by
  constructor
  · intro j id' n' hm
    simp only [insert] at hm ⊢
    split at hm
    · rename_i hj
      rcases insertInto_mem hm with hm | hm
      · rw [hj]; exact h.place _ _ _ hm
      · cases hm; exact hj.symm
    · exact h.place _ _ _ hm
  · intro j
    simp only [insert]
    split
    · exact insertInto_nodup (h.nodup _) id n
    · exact h.nodup j

theorem insertAll_ok {t : Table} (h : Ok t) (l : List (Bytes × Node)) : Ok (insertAll t l) := by
  unfold insertAll
  induction l generalizing t with
  | nil => exact h
  | cons e l ih => exact ih (insert_ok h e.1 e.2)

theorem new_ok (localId : Bytes) : Ok (new localId) :=
  ⟨fun _ _ _ h => absurd h List.not_mem_nil, fun _ => List.nodup_nil⟩

theorem insertAll_localId (t : Table) (l : List (Bytes × Node)) :
    (insertAll t l).localId = t.localId := by
  unfold insertAll
  induction l generalizing t with
  | nil => rfl
  | cons e l ih => exact ih (insert t e.1 e.2)

/-- C27: after any insertions a node is only in the bucket of its affinity, and there once. -/
theorem C27_one_entry_in_the_right_bucket (localId : Bytes) (l : List (Bytes × Node)) :
    (∀ j id n, (id, n) ∈ (insertAll (new localId) l).bucket j → affinity localId id = j) ∧
    (∀ j, (AMap.keys ((insertAll (new localId) l).bucket j)).Nodup) := by
  have h := insertAll_ok (new_ok localId) l
  refine ⟨?_, h.nodup⟩
  intro j id n hm
  have := h.place j id n hm
  rwa [insertAll_localId] at this

/-- The stored node for an id. -/
def lookup (t : Table) (id : Bytes) : Option Node := (t.bucket (affinity t.localId id)).get id

theorem insert_lookup (t : Table) (id id' : Bytes) (n : Node) :
    lookup (insert t id n) id' =
      if id' = id then
        some (match lookup t id with
          | some old => if old.version < n.version then n else old
          | none => n)
      else lookup t id' := by
  unfold lookup
  simp only [insert]
  by_cases h : id' = id
  · subst h
    rw [if_pos rfl, if_pos rfl]
    unfold insertInto
    cases hg : (t.bucket (affinity t.localId id')).get id' with
    | none => simp
    | some old =>
      simp only
      by_cases hv : old.version < n.version
      · simp [hv]
      · simp [hv, hg]
  · rw [if_neg h]
    by_cases ha : affinity t.localId id' = affinity t.localId id
    · rw [if_pos ha, ← ha]
      unfold insertInto
      split
      · split
        · rw [AMap.get_put_ne _ _ h]
        · rfl
      · rw [AMap.get_put_ne _ _ h]
    · rw [if_neg ha]

/-- C27: an insertion never removes a node nor lowers its stored version; the stored version is the
greatest one seen. -/
theorem C27_version_never_decreases (t : Table) (l : List (Bytes × Node)) (id : Bytes) (n : Node)
    (h : lookup t id = some n) :
    ∃ n', lookup (insertAll t l) id = some n' ∧ n.version ≤ n'.version ∧
      (∀ m, (id, m) ∈ l → m.version ≤ n'.version) ∧ (n' = n ∨ (id, n') ∈ l) := by
  unfold insertAll
  induction l generalizing t n with
  | nil => exact ⟨n, h, Nat.le_refl _, fun _ hm => absurd hm List.not_mem_nil, .inl rfl⟩
  | cons e l ih =>
    obtain ⟨i, m⟩ := e
    simp only [List.foldl_cons]
    have hl := insert_lookup t i id m
    by_cases he : id = i
    · subst he
      rw [if_pos rfl, h] at hl
      simp only at hl
      by_cases hv : n.version < m.version
      · rw [if_pos hv] at hl
        obtain ⟨n', h1, h2, h3, h4⟩ := ih _ m hl
        refine ⟨n', h1, by omega, ?_, .inr (by rcases h4 with h4 | h4 <;> simp [h4])⟩
        intro x hx
        rcases List.mem_cons.mp hx with hx | hx
        · cases hx; exact h2
        · exact h3 x hx
      · rw [if_neg hv] at hl
        obtain ⟨n', h1, h2, h3, h4⟩ := ih _ n hl
        refine ⟨n', h1, h2, ?_, by rcases h4 with h4 | h4 <;> simp [h4]⟩
        intro x hx
        rcases List.mem_cons.mp hx with hx | hx
        · cases hx; omega
        · exact h3 x hx
    · rw [if_neg he, h] at hl
      obtain ⟨n', h1, h2, h3, h4⟩ := ih _ n hl
      refine ⟨n', h1, h2, ?_, by rcases h4 with h4 | h4 <;> simp [h4]⟩
      intro x hx
      rcases List.mem_cons.mp hx with hx | hx
      · cases hx; exact absurd rfl he
      · exact h3 x hx

/-! ### Lookup -/

/-- A table as reached by insertions of nodes other than the local one. -/
structure Reached (t : Table) : Prop where
  ok : Ok t
  local32 : t.localId.length = 32
  ids : ∀ j id n, (id, n) ∈ t.bucket j → id.length = 32 ∧ id ≠ t.localId

theorem insertAll_reached (localId : Bytes) (hl : localId.length = 32) (l : List (Bytes × Node))
    (h : ∀ e ∈ l, e.1.length = 32 ∧ e.1 ≠ localId) : Reached (insertAll (new localId) l) := by
  refine ⟨insertAll_ok (new_ok _) l, by rw [insertAll_localId]; exact hl, ?_⟩
  have key : ∀ (l : List (Bytes × Node)) (t : Table), t.localId = localId →
      (∀ e ∈ l, e.1.length = 32 ∧ e.1 ≠ localId) →
      (∀ j id n, (id, n) ∈ t.bucket j → id.length = 32 ∧ id ≠ localId) →
      ∀ j id n, (id, n) ∈ (insertAll t l).bucket j → id.length = 32 ∧ id ≠ localId := by
    intro l
    induction l with
    | nil => intro t _ _ ht; exact ht
    | cons e l ih =>
      intro t hloc hmem ht
      refine ih (insert t e.1 e.2) hloc (fun x hx => hmem x (List.mem_cons_of_mem _ hx)) ?_
      intro j id n hm
      simp only [insert] at hm
      split at hm
      · rcases insertInto_mem hm with hm | hm
        · exact ht _ _ _ hm
        · cases hm; exact hmem e List.mem_cons_self
      · exact ht _ _ _ hm
  intro j id n hm
  rw [insertAll_localId]
  exact key l (new localId) rfl h (fun _ _ _ h => absurd h List.not_mem_nil) j id n hm

theorem find_eq {t : Table} (hl : t.localId.length = 32) (target : Bytes) (ht : target.length = 32)
    (k : Nat) : find t target k =
      ((positions 0 (List.zipWith xor (bits t.localId) (bits target))).flatMap t.bucket).take
        (max k 1) := by
  rw [find, pushAll_eq k t.bucket [] _ (by simp; omega), visitFrom_eq 0 _ _ (by omega) (by omega)]
  rfl

/-- Bits of a stored node around its bucket number. -/
theorem stored_split {t : Table} (h : Reached t) {j : Nat} {id : Bytes} {n : Node}
    (hm : (id, n) ∈ t.bucket j) :
    ∃ p x s s', bits t.localId = p ++ x :: s ∧ bits id = p ++ (!x) :: s' ∧ p.length = j := by
  obtain ⟨h32, hne⟩ := h.ids j id n hm
  have ha := h.ok.place j id n hm
  have hl : (bits t.localId).length = (bits id).length := by
    rw [bits_length, bits_length, h.local32, h32]
  obtain ⟨p, x, s, s', h1, h2, h3⟩ := commonPrefix_split hl
    (fun e => hne (bits_inj (by rw [h.local32, h32]) e).symm)
  refine ⟨p, x, s, s', h1, h2, ?_⟩
  rw [h3, ← ha, affinity, affinityFrom_eq 0 _ _ (by rw [h.local32, h32]) (Ne.symm hne)]
  omega

theorem getElem_zip {a b p q : List Bool} {x y : Bool} {s s' : List Bool} {j : Nat}
    (h1 : a = p ++ x :: s) (h2 : b = q ++ y :: s') (hp : p.length = j) (hq : q.length = j) :
    (List.zipWith xor a b)[j]? = some (xor x y) := by
  subst h1 h2
  rw [List.zipWith_append (by omega), List.zipWith_cons_cons,
    List.getElem?_append_right (by simp; omega)]
  simp only [List.length_zipWith]
  rw [show j - min p.length q.length = 0 by omega]
  rfl

theorem split_at {l : List Bool} {j : Nat} (h : j < l.length) :
    ∃ q y s', l = q ++ y :: s' ∧ q.length = j := by
  refine ⟨l.take j, l[j], l.drop (j + 1), ?_, by rw [List.length_take]; omega⟩
  rw [List.getElem_cons_drop, List.take_append_drop]

/-- A stored node is strictly closer to the target than the local id exactly if the bit of its bucket
is set in the difference. -/
theorem closer_iff {t : Table} (h : Reached t) {target : Bytes} (ht : target.length = 32) {j : Nat}
    {id : Bytes} {n : Node} (hm : (id, n) ∈ t.bucket j) :
    dist id target < dist t.localId target ↔
      j ∈ positions 0 (List.zipWith xor (bits t.localId) (bits target)) := by
  obtain ⟨p, x, s, s', h1, h2, h3⟩ := stored_split h hm
  have hlen := bits_length t.localId
  have hlen2 := bits_length id
  have htl := bits_length target
  rw [h.local32, h1] at hlen
  rw [(h.ids j id n hm).1, h2] at hlen2
  simp only [List.length_append, List.length_cons] at hlen hlen2
  obtain ⟨q, y, r, h4, h5⟩ := split_at (l := bits target) (j := j) (by omega)
  rw [mem_positions]
  rw [show j - 0 = j by omega, getElem_zip h1 h4 h3 h5]
  simp only [Nat.zero_le, true_and, Option.some.injEq]
  have hr := congrArg List.length h4
  simp only [List.length_append, List.length_cons] at hr
  unfold dist
  rw [h1, h2, h4, List.zipWith_append (by omega), List.zipWith_append (by omega),
    List.zipWith_cons_cons, List.zipWith_cons_cons]
  have hl1 : (List.zipWith xor s' r).length = (List.zipWith xor s r).length := by
    simp only [List.length_zipWith]; omega
  have lt1 := value_split_lt (p := List.zipWith xor p q) hl1
  have lt2 := value_split_lt (p := List.zipWith xor p q) hl1.symm
  cases x <;> cases y
  · simp only [Bool.xor_false, Bool.not_false, Bool.false_eq_true, iff_false] at *
    omega
  · simp only [Bool.false_xor, Bool.not_false, Bool.true_xor, Bool.not_true, iff_true] at *
    exact lt1
  · simp only [Bool.xor_false, Bool.not_true, iff_true] at *
    exact lt1
  · simp only [Bool.true_xor, Bool.not_true, Bool.false_xor, Bool.false_eq_true, iff_false] at *
    omega

/-- A node of an earlier visited bucket is strictly closer than one of a later bucket. -/
theorem earlier_is_closer {t : Table} (h : Reached t) {target : Bytes} (ht : target.length = 32)
    {j j' : Nat} {id id' : Bytes} {n n' : Node} (hm : (id, n) ∈ t.bucket j)
    (hm' : (id', n') ∈ t.bucket j') (hjj : j < j')
    (hj : j ∈ positions 0 (List.zipWith xor (bits t.localId) (bits target))) :
    dist id target < dist id' target := by
  obtain ⟨p, x, s, s', h1, h2, h3⟩ := stored_split h hm
  obtain ⟨p', x', u, u', g1, g2, g3⟩ := stored_split h hm'
  have hlen2 := bits_length id
  have hlen3 := bits_length id'
  have htl := bits_length target
  rw [(h.ids j id n hm).1, h2] at hlen2
  rw [(h.ids j' id' n' hm').1] at hlen3
  simp only [List.length_append, List.length_cons] at hlen2
  obtain ⟨q, y, r, h4, h5⟩ := split_at (l := bits target) (j := j) (by omega)
  -- `id'` agrees with the local id up to and including bit `j`
  have hid' : ∃ v, bits id' = p ++ x :: v := by
    have e : (bits id').take (j + 1) = (bits t.localId).take (j + 1) := by
      rw [g1, g2, List.take_append_of_le_length (by omega), List.take_append_of_le_length (by omega)]
    rw [h1, show p ++ x :: s = (p ++ [x]) ++ s by simp,
      List.take_append_of_le_length (by rw [List.length_append, h3]; exact Nat.le_refl _),
      List.take_of_length_le (l := p ++ [x]) (by rw [List.length_append, h3]; exact Nat.le_refl _)] at e
    refine ⟨(bits id').drop (j + 1), ?_⟩
    rw [show p ++ x :: (bits id').drop (j + 1) = (p ++ [x]) ++ (bits id').drop (j + 1) by simp, ← e,
      List.take_append_drop]
  obtain ⟨v, hv⟩ := hid'
  rw [mem_positions, show j - 0 = j by omega, getElem_zip h1 h4 h3 h5] at hj
  have hxy : xor x y = true := by simpa using hj.2
  have hr := congrArg List.length h4
  have hvl := congrArg List.length hv
  simp only [List.length_append, List.length_cons] at hr hvl
  unfold dist
  rw [h2, hv, h4, List.zipWith_append (by omega), List.zipWith_append (by omega),
    List.zipWith_cons_cons, List.zipWith_cons_cons, hxy,
    show (xor (!x) y) = false by cases x <;> cases y <;> simp_all]
  apply value_split_lt
  simp only [List.length_zipWith]
  omega

theorem mem_find {t : Table} (h : Reached t) {target : Bytes} (ht : target.length = 32) {k : Nat}
    {e : Bytes × Node} (he : e ∈ find t target k) :
    ∃ j ∈ positions 0 (List.zipWith xor (bits t.localId) (bits target)), e ∈ t.bucket j := by
  rw [find_eq h.local32 target ht] at he
  have := List.mem_of_mem_take he
  exact List.mem_flatMap.mp this

/-- C26: the answer contains stored nodes only, strictly closer to the target than the local id. -/
theorem C26_answers_are_stored_and_closer {t : Table} (h : Reached t) (target : Bytes)
    (ht : target.length = 32) (k : Nat) (id : Bytes) (n : Node) (he : (id, n) ∈ find t target k) :
    lookup t id = some n ∧ dist id target < dist t.localId target := by
  obtain ⟨j, hj, hm⟩ := mem_find h ht he
  refine ⟨?_, (closer_iff h ht hm).mpr hj⟩
  rw [lookup, h.ok.place j id n hm]
  exact AMap.get_of_mem (h.ok.nodup j) hm

/-- C26: at most `k` of them (one for `k = 0`). -/
theorem C26_at_most_k (t : Table) (h : Reached t) (target : Bytes) (ht : target.length = 32) (k : Nat) :
    (find t target k).length ≤ max k 1 := by
  rw [find_eq h.local32 target ht, List.length_take]
  omega

theorem nodup_flatMap_buckets {t : Table} (h : Ok t) (js : List Nat) (hjs : js.Pairwise (· < ·)) :
    ((js.flatMap t.bucket).map (·.1)).Nodup := by
  induction js with
  | nil => simp
  | cons j js ih =>
    obtain ⟨h1, h2⟩ := List.pairwise_cons.mp hjs
    simp only [List.flatMap_cons, List.map_append]
    rw [List.nodup_append]
    refine ⟨h.nodup j, ih h2, ?_⟩
    intro a ha b hb e
    subst e
    obtain ⟨⟨i, n⟩, hm, rfl⟩ := List.mem_map.mp ha
    obtain ⟨⟨i', n'⟩, hm', e⟩ := List.mem_map.mp hb
    simp only at e
    subst e
    obtain ⟨j', hj', hm'⟩ := List.mem_flatMap.mp hm'
    have e1 := h.place j _ n hm
    have e2 := h.place j' _ n' hm'
    have := h1 j' hj'
    omega

/-- C26: no node occurs twice. -/
theorem C26_answers_are_distinct (t : Table) (h : Reached t) (target : Bytes) (ht : target.length = 32)
    (k : Nat) : ((find t target k).map (·.1)).Nodup := by
  rw [find_eq h.local32 target ht]
  have := nodup_flatMap_buckets h.ok _ (positions_sorted 0
    (List.zipWith xor (bits t.localId) (bits target)))
  exact this.sublist ((List.take_sublist _ _).map _)

/-- C26: the answer is ordered by class: of two nodes in different buckets the earlier one is strictly
closer to the target. -/
theorem C26_answers_are_ordered (t : Table) (h : Reached t) (target : Bytes) (ht : target.length = 32)
    (k : Nat) : (find t target k).Pairwise fun a b =>
      affinity t.localId a.1 = affinity t.localId b.1 ∨ dist a.1 target < dist b.1 target := by
  rw [find_eq h.local32 target ht]
  refine List.Pairwise.sublist (List.take_sublist _ _) ?_
  have hs := positions_sorted 0 (List.zipWith xor (bits t.localId) (bits target))
  have hm : ∀ j ∈ positions 0 (List.zipWith xor (bits t.localId) (bits target)),
      j ∈ positions 0 (List.zipWith xor (bits t.localId) (bits target)) := fun _ h => h
  generalize hps : positions 0 (List.zipWith xor (bits t.localId) (bits target)) = ps at *
  have key : ∀ js : List Nat, js.Pairwise (· < ·) → (∀ j ∈ js, j ∈ ps) →
      (js.flatMap t.bucket).Pairwise fun a b =>
        affinity t.localId a.1 = affinity t.localId b.1 ∨ dist a.1 target < dist b.1 target := by
    intro js
    induction js with
    | nil => intro _ _; simp
    | cons j js ih =>
      intro hp hin
      obtain ⟨h1, h2⟩ := List.pairwise_cons.mp hp
      rw [List.flatMap_cons, List.pairwise_append]
      refine ⟨?_, ih h2 (fun x hx => hin x (List.mem_cons_of_mem _ hx)), ?_⟩
      · rw [List.pairwise_iff_forall_sublist]
        intro a b hab
        left
        have ha : a ∈ t.bucket j := hab.subset (by simp)
        have hb : b ∈ t.bucket j := hab.subset (by simp)
        rw [h.ok.place j a.1 a.2 ha, h.ok.place j b.1 b.2 hb]
      · intro a ha b hb
        right
        obtain ⟨j', hj', hb⟩ := List.mem_flatMap.mp hb
        exact earlier_is_closer h ht (n := a.2) (n' := b.2) ha hb (h1 j' hj')
          (hps ▸ hin j List.mem_cons_self)
  exact key ps hs hm

/-- C26: if fewer than `k` nodes are returned, every stored node strictly closer to the target than the
local id is among them. -/
theorem C26_short_answer_is_complete (t : Table) (h : Reached t) (target : Bytes)
    (ht : target.length = 32) (k : Nat) (hk : (find t target k).length < k) (id : Bytes) (n : Node)
    (hs : lookup t id = some n) (hc : dist id target < dist t.localId target) :
    (id, n) ∈ find t target k := by
  have hm : (id, n) ∈ t.bucket (affinity t.localId id) := AMap.mem_of_get hs
  have hj := (closer_iff h ht hm).mp hc
  rw [find_eq h.local32 target ht] at hk ⊢
  rw [List.take_of_length_le]
  · exact List.mem_flatMap.mpr ⟨_, hj, hm⟩
  · rw [List.length_take] at hk
    omega

/-- A record told apart by its signature field. -/
def exampleNode (n : UInt8) : Node := ⟨.ed25519 [n], ⟨none, 0, 0, 0⟩, 1, [n]⟩

/-- Non-vacuity: a table of three nodes. -/
def exampleTable : Table :=
  insertAll (new (List.replicate 32 0))
    [(List.replicate 32 255, exampleNode 0), (64 :: List.replicate 31 0, exampleNode 1), (65 :: List.replicate 31 0, exampleNode 2)]

example : Reached exampleTable :=
  insertAll_reached _ (by simp) _ (by decide)

example : (find exampleTable (65 :: List.replicate 31 3) 10).map (·.2.signature) = [[2], [1]] := by
  decide +kernel

example : dist (64 :: List.replicate 31 0) (65 :: List.replicate 31 3) <
    dist (List.replicate 32 0) (65 :: List.replicate 31 3) := by decide +kernel

/-- C27: a stored node meets newer and older records of itself. -/
example : ∃ n', lookup (insertAll exampleTable
      [(List.replicate 32 255, { exampleNode 0 with version := 7 }), (List.replicate 32 255, { exampleNode 0 with version := 3 })])
      (List.replicate 32 255) = some n' ∧ 7 ≤ n'.version := by
  obtain ⟨n', h, -, h', -⟩ := C27_version_never_decreases exampleTable
    [(List.replicate 32 255, { exampleNode 0 with version := 7 }), (List.replicate 32 255, { exampleNode 0 with version := 3 })]
    (List.replicate 32 255) (exampleNode 0) (by decide +kernel)
  exact ⟨n', h, h' _ List.mem_cons_self⟩

/-- C26: the table and a target the theorems speak about. -/
example : lookup exampleTable (65 :: List.replicate 31 0) = some (exampleNode 2) ∧
    (find exampleTable (65 :: List.replicate 31 3) 1).length ≤ 1 ∧
    ((find exampleTable (65 :: List.replicate 31 3) 10).map (·.1)).Nodup ∧
    ((find exampleTable (65 :: List.replicate 31 3) 10).Pairwise fun a b =>
      affinity exampleTable.localId a.1 = affinity exampleTable.localId b.1 ∨
      dist a.1 (65 :: List.replicate 31 3) < dist b.1 (65 :: List.replicate 31 3)) :=
  have hr : Reached exampleTable := insertAll_reached _ (by simp) _ (by decide)
  have ht : (65 :: List.replicate 31 (3 : UInt8)).length = 32 := by simp
  ⟨(C26_answers_are_stored_and_closer hr _ ht 10 _ _ (by decide +kernel)).1, C26_at_most_k _ hr _ ht 1,
    C26_answers_are_distinct _ hr _ ht 10, C26_answers_are_ordered _ hr _ ht 10⟩

end Verif.Buckets
