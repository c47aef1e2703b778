import Verif.Model.DhtConc
import Verif.Props.DhtTables

/-!
# C136: records of DHT nodes added by several tasks at once
-/
namespace Verif.DhtConc
open Verif.Tl Verif.Address Verif.AdnlProto Verif.DhtProto Verif.Storage Verif.Dht

variable {c : Crypto}

/-- The call as an operation of the sequential model. -/
def Task.op (k : Task c) : Op c := .learned k.now k.key k.node

/-- The answer of the call by a node with the given id, as long as the ADNL node has peers for it. -/
def verdict (o : Opts c) (localId : Bytes) (k : Task c) : AddedPeer :=
  match Receiver.fullId c k.node.id with
  | none => .error
  | some pub =>
    if verifySig c pub (writeDNodeBoxed { k.node with signature := [] }) k.node.signature = false then .none
    else
      match parse o.adnl.build k.now o.adnl.clockTolerance k.node.addrList with
      | .ok addr =>
        if Node.shortId c pub = localId ∨ addr = o.adnl.socketAddr then .none
        else if (o.adnl.filter.map (fun f => f addr (Node.shortId c pub))).getD true = false then .none
        else .some (Node.shortId c pub)
      | _ => .error

/-- The tables of two states agree. -/
structure Tabs (localId : Bytes) (s : State c) : Prop where
  loc : s.buckets.localId = localId
  peers : (s.adnl.peers.get localId).isSome

theorem addPeer_cases (o : Node.Opts c) (s : Node.State c) (localId id : Bytes) (addr : SockAddr)
    (pub : c.Pub) (key : c.Sec) (hp : (s.peers.get localId).isSome) :
    (Node.addPeer o s localId id addr pub key).2 =
      (if id = localId ∨ addr = o.socketAddr then .no
      else if (o.filter.map (fun f => f addr id)).getD true = false then .no else .yes) ∧
    ((Node.addPeer o s localId id addr pub key).1.peers.get localId).isSome := by
  obtain ⟨t, ht⟩ := Option.isSome_iff_exists.mp hp
  unfold Node.addPeer
  split
  · exact ⟨rfl, hp⟩
  · split
    · exact ⟨rfl, hp⟩
    · simp only [ht]
      cases t.get id <;> simp [Node.State.setPeer, ht]

theorem insert_false {s : PeersSet.State Bytes} {id : Bytes} (h : ¬ (PeersSet.insert s id).2 = true) :
    (PeersSet.insert s id).1 = s := by
  unfold PeersSet.insert at h ⊢
  split
  · rfl
  · rename_i hg
    simp only [hg] at h
    split at h <;> simp at h

theorem setGood_get (p : Penalties) (id i : Bytes) :
    (setGood p id).get i = if i = id then (p.get i).map (· - 1) else p.get i := by
  unfold setGood
  by_cases h : i = id
  · subst h
    cases hp : p.get i with
    | none => simp [hp]
    | some n => simp
  · rw [if_neg h]
    split
    · rw [AMap.get_put_ne _ _ h]
    · rfl

/-- What the sequential call does to the tables. -/
theorem seq_step (o : Opts c) (localId : Bytes) (s : State c) (h : Tabs localId s) (k : Task c) :
    Tabs localId (addDhtPeer o k.now s k.node k.key).1 ∧
    (addDhtPeer o k.now s k.node k.key).2 = verdict o localId k ∧
    (∀ id, verdict o localId k = .some id →
      (addDhtPeer o k.now s k.node k.key).1.known = (PeersSet.insert s.known id).1 ∧
      (addDhtPeer o k.now s k.node k.key).1.buckets =
        (if (PeersSet.insert s.known id).2 then Buckets.insert s.buckets id k.node else s.buckets) ∧
      (addDhtPeer o k.now s k.node k.key).1.penalties =
        if (PeersSet.insert s.known id).2 then s.penalties else setGood s.penalties id) ∧
    ((∀ id, verdict o localId k ≠ .some id) →
      (addDhtPeer o k.now s k.node k.key).1.known = s.known ∧
      (addDhtPeer o k.now s k.node k.key).1.buckets = s.buckets ∧
      (addDhtPeer o k.now s k.node k.key).1.penalties = s.penalties) := by
  have hl := h.loc
  have triv : ∀ r : AddedPeer, (∀ id, r ≠ .some id) → Tabs localId s ∧ r = r ∧
      (∀ id, r = .some id → s.known = (PeersSet.insert s.known id).1 ∧
        s.buckets = (if (PeersSet.insert s.known id).2 then Buckets.insert s.buckets id k.node else s.buckets) ∧
        s.penalties = if (PeersSet.insert s.known id).2 then s.penalties else setGood s.penalties id) ∧
      ((∀ id, r ≠ .some id) → s.known = s.known ∧ s.buckets = s.buckets ∧ s.penalties = s.penalties) :=
    fun r hr => ⟨h, rfl, fun id e => absurd e (hr id), fun _ => ⟨rfl, rfl, rfl⟩⟩
  unfold addDhtPeer verdict
  cases hf : Receiver.fullId c k.node.id with
  | none => exact triv .error (fun _ => by simp)
  | some pub =>
    simp only
    split
    · exact triv .none (fun _ => by simp)
    · cases hpa : parse o.adnl.build k.now o.adnl.clockTolerance k.node.addrList with
      | ok addr =>
        simp only
        obtain ⟨a1, a2⟩ := addPeer_cases o.adnl s.adnl localId (Node.shortId c pub) addr pub k.key h.peers
        rw [← hl] at a1 a2
        generalize hx : Node.addPeer o.adnl s.adnl s.buckets.localId (Node.shortId c pub) addr pub k.key = x at *
        obtain ⟨adnl, r⟩ := x
        simp only at a1 a2
        rw [← hl]
        by_cases e1 : Node.shortId c pub = s.buckets.localId ∨ addr = o.adnl.socketAddr
        · rw [if_pos e1] at a1
          subst a1
          simp only [if_pos e1]
          rw [hl]
          simpa using triv .none (fun _ => by simp)
        · rw [if_neg e1] at a1
          simp only [if_neg e1]
          by_cases e2 : (o.adnl.filter.map (fun f => f addr (Node.shortId c pub))).getD true = false
          · rw [if_pos e2] at a1
            subst a1
            simp only [if_pos e2]
            rw [hl]
            simpa using triv .none (fun _ => by simp)
          · rw [if_neg e2] at a1
            subst a1
            simp only [if_neg e2]
            by_cases hi : (PeersSet.insert s.known (Node.shortId c pub)).2 = true
            · simp only [hi, if_true]
              refine ⟨⟨rfl, a2⟩, trivial, ?_, fun hn => absurd rfl (hn _)⟩
              intro id e
              obtain rfl := AddedPeer.some.inj e
              exact ⟨rfl, by rw [if_pos hi], by rw [if_pos hi]⟩
            · simp only [hi, if_false, Bool.false_eq_true]
              refine ⟨⟨rfl, a2⟩, trivial, ?_, fun hn => absurd rfl (hn _)⟩
              intro id e
              obtain rfl := AddedPeer.some.inj e
              exact ⟨(insert_false hi).symm, by rw [if_neg hi], by rw [if_neg hi]⟩
      | listIsEmpty => exact triv .error (fun _ => by simp)
      | tooNew => exact triv .error (fun _ => by simp)
      | expired => exact triv .error (fun _ => by simp)
      | panic => exact triv .error (fun _ => by simp)

/-- What the first step of the concurrent call does. -/
theorem start_step (o : Opts c) (localId : Bytes) (s : State c) (h : Tabs localId s) (k : Task c) :
    Tabs localId (stepOf o s k .start).1 ∧
    (stepOf o s k .start).1.known = s.known ∧ (stepOf o s k .start).1.buckets = s.buckets ∧
    (stepOf o s k .start).1.penalties = s.penalties ∧
    (stepOf o s k .start).2 =
      (match verdict o localId k with
      | .some id => .known id
      | r => .done r) := by
  have hl := h.loc
  unfold stepOf verdict
  cases hf : Receiver.fullId c k.node.id with
  | none => exact ⟨h, rfl, rfl, rfl, rfl⟩
  | some pub =>
    simp only
    split
    · exact ⟨h, rfl, rfl, rfl, rfl⟩
    · cases hpa : parse o.adnl.build k.now o.adnl.clockTolerance k.node.addrList with
      | ok addr =>
        simp only
        obtain ⟨a1, a2⟩ := addPeer_cases o.adnl s.adnl localId (Node.shortId c pub) addr pub k.key h.peers
        rw [← hl] at a1 a2
        generalize hx : Node.addPeer o.adnl s.adnl s.buckets.localId (Node.shortId c pub) addr pub k.key = x at *
        obtain ⟨adnl, r⟩ := x
        simp only at a1 a2
        rw [← hl]
        have h' : Tabs s.buckets.localId s := by rw [hl]; exact h
        by_cases e1 : Node.shortId c pub = s.buckets.localId ∨ addr = o.adnl.socketAddr
        · rw [if_pos e1] at a1
          subst a1
          simp only [if_pos e1]
          exact ⟨h', trivial, trivial, trivial, trivial⟩
        · rw [if_neg e1] at a1
          simp only [if_neg e1]
          by_cases e2 : (o.adnl.filter.map (fun f => f addr (Node.shortId c pub))).getD true = false
          · rw [if_pos e2] at a1
            subst a1
            simp only [if_pos e2]
            exact ⟨h', trivial, trivial, trivial, trivial⟩
          · rw [if_neg e2] at a1
            subst a1
            simp only [if_neg e2]
            exact ⟨⟨rfl, a2⟩, trivial, trivial, trivial, trivial⟩
      | listIsEmpty => exact ⟨h, rfl, rfl, rfl, rfl⟩
      | tooNew => exact ⟨h, rfl, rfl, rfl, rfl⟩
      | expired => exact ⟨h, rfl, rfl, rfl, rfl⟩
      | panic => exact ⟨h, rfl, rfl, rfl, rfl⟩

/-! ### The invariant: the concurrent state `σ` and the state `s` of the calls one after another -/

/-- Where task `t` can be, with the calls in `l` already done in the sequential world. -/
def Place (o : Opts c) (localId : Bytes) (tasks : Nat → Task c) (l : List Nat) (t : Nat) : Pc → Prop
  | .start => t ∉ l
  | .known id => t ∉ l ∧ verdict o localId (tasks t) = .some id
  | .bucket id => t ∈ l ∧ verdict o localId (tasks t) = .some id
  | .good id => t ∈ l ∧ verdict o localId (tasks t) = .some id
  | .done r => t ∈ l ∧ verdict o localId (tasks t) = r

/-- How often `set_good_peer` is still to be called for a peer by the tasks of the list. -/
def owes (l : List Nat) (pc : Nat → Pc) (id : Bytes) : Nat := l.countP fun t => decide (pc t = .good id)

theorem owes_same {l : List Nat} {pc pc' : Nat → Pc} {id : Bytes} (h : ∀ u ∈ l, pc' u = .good id ↔ pc u = .good id) :
    owes l pc' id = owes l pc id := by
  unfold owes
  apply List.countP_congr
  intro u hu
  simp [h u hu]

theorem owes_paid {pc pc' : Nat → Pc} {id : Bytes} {t : Nat} (ht : pc t = .good id) (ht' : pc' t ≠ .good id)
    (h : ∀ u, u ≠ t → pc' u = pc u) : ∀ {l : List Nat}, t ∈ l → l.Nodup → owes l pc id = owes l pc' id + 1 := by
  intro l
  induction l with
  | nil => intro hm; exact absurd hm List.not_mem_nil
  | cons a l ih =>
    intro hm hn
    rw [List.nodup_cons] at hn
    unfold owes at ih ⊢
    by_cases e : a = t
    · subst e
      have : owes l pc' id = owes l pc id := owes_same fun u hu => by
        rw [h u (by rintro rfl; exact hn.1 hu)]
      unfold owes at this
      simp [ht, ht', this]
    · have hm' : t ∈ l := by
        rcases List.mem_cons.mp hm with e' | hm'
        · exact absurd e'.symm e
        · exact hm'
      have := ih hm' hn.2
      simp only [List.countP_cons, h a e]
      omega

structure Inv (o : Opts c) (localId : Bytes) (tasks : Nat → Task c) (l : List Nat) (σ : Sys c)
    (s : State c) : Prop where
  tabs : Tabs localId σ.node
  tabs' : Tabs localId s
  known : σ.node.known = s.known
  nodup : l.Nodup
  place : ∀ t, Place o localId tasks l t (σ.pc t)
  pending : ∀ t id, σ.pc t = .bucket id →
    ∃ n, Buckets.lookup s.buckets id = some n ∧ (tasks t).node.version ≤ n.version
  below : ∀ id n, Buckets.lookup σ.node.buckets id = some n →
    ∃ n', Buckets.lookup s.buckets id = some n' ∧ n.version ≤ n'.version
  reached : ∀ id n', Buckets.lookup s.buckets id = some n' →
    (∃ n, Buckets.lookup σ.node.buckets id = some n ∧ n.version = n'.version) ∨
    ∃ t, σ.pc t = .bucket id ∧ (tasks t).node.version = n'.version
  pen : ∀ id, s.penalties.get id = (σ.node.penalties.get id).map (· - owes l σ.pc id)

theorem inv_init (o : Opts c) (localId : Bytes) (tasks : Nat → Task c) (s : State c) (h : Tabs localId s) :
    Inv o localId tasks [] (Sys.init s) s :=
  ⟨h, h, rfl, List.nodup_nil, fun t => by simp [Sys.init, Place], fun t id e => by simp [Sys.init] at e,
    fun id n hn => ⟨n, hn, Nat.le_refl _⟩, fun id n hn => .inl ⟨n, hn, rfl⟩, fun id => by simp [owes, Sys.init]⟩

theorem place_mono {o : Opts c} {localId : Bytes} {tasks : Nat → Task c} {l : List Nat} {t u : Nat}
    (hne : u ≠ t) {pc : Pc} (h : Place o localId tasks l u pc) :
    Place o localId tasks (l ++ [t]) u pc := by
  cases pc <;> simp only [Place, List.mem_append, List.mem_singleton] at h ⊢ <;> simp_all

/-- The version found after an insertion. -/
theorem insert_version (t : Buckets.Table) (id id' : Bytes) (n m : DNode)
    (h : Buckets.lookup (Buckets.insert t id n) id' = some m) :
    (id' = id ∧ n.version ≤ m.version ∧ (m = n ∨ Buckets.lookup t id = some m) ∧
      (∀ old, Buckets.lookup t id = some old → old.version ≤ m.version)) ∨
    (id' ≠ id ∧ Buckets.lookup t id' = some m) := by
  rw [Buckets.insert_lookup] at h
  by_cases e : id' = id
  · rw [if_pos e] at h
    left
    refine ⟨e, ?_⟩
    cases ho : Buckets.lookup t id with
    | none =>
      simp only [ho, Option.some.injEq] at h
      subst h
      exact ⟨Nat.le_refl _, .inl rfl, fun _ h => by simp at h⟩
    | some old =>
      simp only [ho, Option.some.injEq] at h
      split at h
      · rename_i hv
        subst h
        refine ⟨Nat.le_refl _, .inl rfl, ?_⟩
        intro old' e'
        obtain rfl := Option.some.inj e'
        exact Nat.le_of_lt hv
      · rename_i hv
        subst h
        refine ⟨Nat.le_of_not_lt hv, .inr rfl, ?_⟩
        intro old' e'
        obtain rfl := Option.some.inj e'
        exact Nat.le_refl _
  · rw [if_neg e] at h
    exact .inr ⟨e, h⟩

theorem insert_some (t : Buckets.Table) (id : Bytes) (n : DNode) :
    ∃ m, Buckets.lookup (Buckets.insert t id n) id = some m := by
  rw [Buckets.insert_lookup, if_pos rfl]; exact ⟨_, rfl⟩

theorem insert_other (t : Buckets.Table) (id id' : Bytes) (n : DNode) (h : id' ≠ id) :
    Buckets.lookup (Buckets.insert t id n) id' = Buckets.lookup t id' := by
  rw [Buckets.insert_lookup, if_neg h]

/-- One step: the sequential world waits, or makes the whole call. -/
theorem inv_step {o : Opts c} {localId : Bytes} {tasks : Nat → Task c} {l : List Nat} {σ : Sys c}
    {s : State c} (h : Inv o localId tasks l σ s) (t : Nat) :
    Inv o localId tasks l (σ.step o tasks t) s ∨
    (t ∉ l ∧ Inv o localId tasks (l ++ [t]) (σ.step o tasks t)
      (addDhtPeer o (tasks t).now s (tasks t).node (tasks t).key).1) := by
  have hpt := h.place t
  -- the other tasks stay where they are
  have other : ∀ u, u ≠ t → (σ.step o tasks t).pc u = σ.pc u := fun u hu => by simp [Sys.step, hu]
  have self : (σ.step o tasks t).pc t = (stepOf o σ.node (tasks t) (σ.pc t)).2 := by simp [Sys.step]
  have nodeEq : (σ.step o tasks t).node = (stepOf o σ.node (tasks t) (σ.pc t)).1 := rfl
  obtain ⟨q1, q2, q3, q4⟩ := seq_step o localId s h.tabs' (tasks t)
  cases hpc : σ.pc t with
  | start =>
    rw [hpc] at hpt self nodeEq
    obtain ⟨b1, b2, b3, b5, b4⟩ := start_step o localId σ.node h.tabs (tasks t)
    rw [b4] at self
    have hb : ∀ u id, (σ.step o tasks t).pc u = .bucket id → σ.pc u = .bucket id ∧ u ≠ t := by
      intro u id e
      by_cases hu : u = t
      · subst hu
        rw [self] at e
        split at e <;> cases e
      · exact ⟨other u hu ▸ e, hu⟩
    have hb' : ∀ u id, σ.pc u = .bucket id → (σ.step o tasks t).pc u = .bucket id := by
      intro u id e
      have hu : u ≠ t := by rintro rfl; rw [hpc] at e; cases e
      rw [other u hu]; exact e
    cases hv : verdict o localId (tasks t) with
    | some id =>
      left
      rw [hv] at self
      refine ⟨nodeEq ▸ b1, h.tabs', by rw [nodeEq, b2]; exact h.known, h.nodup, ?_, ?_, ?_, ?_, ?_⟩
      · intro u
        by_cases hu : u = t
        · subst hu; rw [self]; exact ⟨hpt, hv⟩
        · rw [other u hu]; exact h.place u
      · intro u i e; exact h.pending u i (hb u i e).1
      · intro i n hn; rw [nodeEq, b3] at hn; exact h.below i n hn
      · intro i n hn
        rcases h.reached i n hn with ⟨m, hm, e⟩ | ⟨u, hu, e⟩
        · left; rw [nodeEq, b3]; exact ⟨m, hm, e⟩
        · right; exact ⟨u, hb' u i hu, e⟩
      · intro i
        rw [h.pen i, nodeEq, b5, owes_same (pc := σ.pc) (pc' := (σ.step o tasks t).pc)]
        intro u _
        by_cases hu : u = t
        · subst hu; rw [self, hpc]; exact ⟨(fun e => by cases e), (fun e => by cases e)⟩
        · rw [other u hu]
    | error | none =>
      right
      rw [hv] at self
      obtain ⟨k1, k2, k3⟩ := q4 (fun id => by rw [hv]; simp)
      refine ⟨hpt, nodeEq ▸ b1, q1, by rw [nodeEq, b2, k1]; exact h.known, ?_, ?_, ?_, ?_, ?_, ?_⟩
      · exact List.nodup_append.mpr ⟨h.nodup, by simp, by
          intro a ha b hb hab
          rw [List.mem_singleton] at hb
          exact hpt (hb ▸ hab ▸ ha)⟩
      · intro u
        by_cases hu : u = t
        · subst hu; rw [self]; exact ⟨by simp, hv⟩
        · rw [other u hu]; exact place_mono hu (h.place u)
      · intro u i e; rw [k2]; exact h.pending u i (hb u i e).1
      · intro i n hn; rw [nodeEq, b3] at hn; rw [k2]; exact h.below i n hn
      · intro i n hn
        rw [k2] at hn
        rcases h.reached i n hn with ⟨m, hm, e⟩ | ⟨u, hu, e⟩
        · left; rw [nodeEq, b3]; exact ⟨m, hm, e⟩
        · right; exact ⟨u, hb' u i hu, e⟩
      · intro i
        rw [k3, h.pen i, nodeEq, b5]
        have e1 : owes (l ++ [t]) (σ.step o tasks t).pc i = owes l (σ.step o tasks t).pc i := by
          unfold owes; rw [List.countP_append]; simp [self]
        rw [e1, owes_same (pc := σ.pc) (pc' := (σ.step o tasks t).pc)]
        intro u _
        by_cases hu : u = t
        · subst hu; rw [self, hpc]; exact ⟨(fun e => by cases e), (fun e => by cases e)⟩
        · rw [other u hu]
  | known id =>
    right
    rw [hpc] at hpt self nodeEq
    obtain ⟨hnl, hv⟩ := hpt
    obtain ⟨k1, k2, k3⟩ := q3 id hv
    have e1 : (σ.step o tasks t).node.buckets = σ.node.buckets := by rw [nodeEq]; rfl
    have e2 : (σ.step o tasks t).node.known = (PeersSet.insert s.known id).1 := by
      rw [nodeEq]; simp [stepOf, h.known]
    simp only [stepOf, h.known] at self
    have hb' : ∀ u i, σ.pc u = .bucket i → (σ.step o tasks t).pc u = .bucket i := by
      intro u i e
      have hu : u ≠ t := by rintro rfl; rw [hpc] at e; cases e
      rw [other u hu]; exact e
    refine ⟨hnl, ⟨by rw [e1]; exact h.tabs.loc, by rw [nodeEq]; exact h.tabs.peers⟩, q1, by rw [e2, k1], ?_, ?_, ?_, ?_, ?_, ?_⟩
    · exact List.nodup_append.mpr ⟨h.nodup, by simp, by
        intro a ha b hb hab
        rw [List.mem_singleton] at hb
        exact hnl (hb ▸ hab ▸ ha)⟩
    · intro u
      by_cases hu : u = t
      · subst hu
        rw [self]
        split <;> exact ⟨by simp, hv⟩
      · rw [other u hu]; exact place_mono hu (h.place u)
    · intro u i e
      rw [k2]
      by_cases hu : u = t
      · subst hu
        rw [self] at e
        split at e
        · rename_i hi
          obtain rfl := Pc.bucket.inj e
          rw [if_pos hi]
          obtain ⟨m, hm⟩ := insert_some s.buckets id (tasks u).node
          rcases insert_version _ _ _ _ _ hm with ⟨-, hle, -, -⟩ | ⟨hne, -⟩
          · exact ⟨m, hm, hle⟩
          · exact absurd rfl hne
        · cases e
      · rw [other u hu] at e
        obtain ⟨n, hn, hle⟩ := h.pending u i e
        split
        · by_cases hi : i = id
          · subst hi
            obtain ⟨m, hm⟩ := insert_some s.buckets i (tasks t).node
            rcases insert_version _ _ _ _ _ hm with ⟨-, -, -, hall⟩ | ⟨hne, -⟩
            · exact ⟨m, hm, Nat.le_trans hle (hall n hn)⟩
            · exact absurd rfl hne
          · exact ⟨n, by rw [insert_other _ _ _ _ hi]; exact hn, hle⟩
        · exact ⟨n, hn, hle⟩
    · intro i n hn
      rw [e1] at hn
      rw [k2]
      obtain ⟨n', hn', hle⟩ := h.below i n hn
      split
      · by_cases hi : i = id
        · subst hi
          obtain ⟨m, hm⟩ := insert_some s.buckets i (tasks t).node
          rcases insert_version _ _ _ _ _ hm with ⟨-, -, -, hall⟩ | ⟨hne, -⟩
          · exact ⟨m, hm, Nat.le_trans hle (hall n' hn')⟩
          · exact absurd rfl hne
        · exact ⟨n', by rw [insert_other _ _ _ _ hi]; exact hn', hle⟩
      · exact ⟨n', hn', hle⟩
    · intro i n' hn'
      have old : Buckets.lookup s.buckets i = some n' →
          (∃ n, Buckets.lookup (σ.step o tasks t).node.buckets i = some n ∧ n.version = n'.version) ∨
          ∃ u, (σ.step o tasks t).pc u = .bucket i ∧ (tasks u).node.version = n'.version := by
        intro hs
        rcases h.reached i n' hs with ⟨m, hm, e⟩ | ⟨u, hu, e⟩
        · exact .inl ⟨m, by rw [e1]; exact hm, e⟩
        · exact .inr ⟨u, hb' u i hu, e⟩
      rw [k2] at hn'
      split at hn'
      · rename_i hi
        rcases insert_version _ _ _ _ _ hn' with ⟨rfl, -, rfl | hs, -⟩ | ⟨-, hs⟩
        · right
          exact ⟨t, by rw [self, if_pos hi], rfl⟩
        · exact old hs
        · exact old hs
      · exact old hn'
    · intro i
      have e4 : (σ.step o tasks t).node.penalties = σ.node.penalties := by rw [nodeEq]; rfl
      have e5 : owes l (σ.step o tasks t).pc i = owes l σ.pc i := owes_same fun u hu => by
        rw [other u (by rintro rfl; exact hnl hu)]
      rw [k3, e4]
      unfold owes at e5 ⊢
      rw [List.countP_append, e5]
      by_cases hi : (PeersSet.insert s.known id).2 = true
      · rw [if_pos hi] at self ⊢
        simpa [self, owes] using h.pen i
      · rw [if_neg hi] at self ⊢
        rw [setGood_get]
        by_cases e : i = id
        · subst e
          rw [if_pos rfl, h.pen i]
          cases σ.node.penalties.get i with
          | none => rfl
          | some n => simp [self, owes]; omega
        · rw [if_neg e]
          have e' : ¬ id = i := fun h => e h.symm
          simpa [self, owes, e'] using h.pen i
  | bucket id =>
    left
    rw [hpc] at hpt self nodeEq
    obtain ⟨hl, hv⟩ := hpt
    have e1 : (σ.step o tasks t).node.buckets = Buckets.insert σ.node.buckets id (tasks t).node := by
      rw [nodeEq]; rfl
    have e2 : (σ.step o tasks t).node.known = σ.node.known := by rw [nodeEq]; rfl
    have e3 : (σ.step o tasks t).node.adnl = σ.node.adnl := by rw [nodeEq]; rfl
    have self' : (σ.step o tasks t).pc t = .done (.some id) := self
    obtain ⟨nt, hnt, hle⟩ := h.pending t id hpc
    have below' : ∀ i n, Buckets.lookup (σ.step o tasks t).node.buckets i = some n →
        ∃ n', Buckets.lookup s.buckets i = some n' ∧ n.version ≤ n'.version := by
      intro i n hn
      rw [e1] at hn
      rcases insert_version _ _ _ _ _ hn with ⟨rfl, -, rfl | hs, -⟩ | ⟨-, hs⟩
      · exact ⟨nt, hnt, hle⟩
      · exact h.below _ n hs
      · exact h.below i n hs
    refine ⟨⟨by rw [e1]; exact h.tabs.loc, by rw [e3]; exact h.tabs.peers⟩, h.tabs',
      by rw [e2]; exact h.known, h.nodup, ?_, ?_, below', ?_, ?_⟩
    · intro u
      by_cases hu : u = t
      · subst hu; rw [self']; exact ⟨hl, hv⟩
      · rw [other u hu]; exact h.place u
    · intro u i e
      by_cases hu : u = t
      · subst hu; rw [self'] at e; cases e
      · rw [other u hu] at e; exact h.pending u i e
    · intro i n' hn'
      -- the version in the bucket is at least the wanted one, and not more
      have close : ∀ m, Buckets.lookup (σ.step o tasks t).node.buckets i = some m →
          n'.version ≤ m.version →
          ∃ n, Buckets.lookup (σ.step o tasks t).node.buckets i = some n ∧ n.version = n'.version := by
        intro m hm hge
        obtain ⟨n'', hn'', hle''⟩ := below' i m hm
        rw [hn'] at hn''
        obtain rfl := Option.some.inj hn''
        exact ⟨m, hm, Nat.le_antisymm hle'' hge⟩
      rcases h.reached i n' hn' with ⟨m, hm, e⟩ | ⟨u, hu, e⟩
      · left
        by_cases hi : i = id
        · subst hi
          obtain ⟨m', hm'⟩ := insert_some σ.node.buckets i (tasks t).node
          rcases insert_version _ _ _ _ _ hm' with ⟨-, -, -, hall⟩ | ⟨hne, -⟩
          · exact close m' (by rw [e1]; exact hm') (e ▸ hall m hm)
          · exact absurd rfl hne
        · exact ⟨m, by rw [e1, insert_other _ _ _ _ hi]; exact hm, e⟩
      · by_cases hut : u = t
        · left
          subst hut
          rw [hpc] at hu
          obtain rfl := Pc.bucket.inj hu
          obtain ⟨m', hm'⟩ := insert_some σ.node.buckets id (tasks u).node
          rcases insert_version _ _ _ _ _ hm' with ⟨-, hge, -, -⟩ | ⟨hne, -⟩
          · exact close m' (by rw [e1]; exact hm') (e ▸ hge)
          · exact absurd rfl hne
        · right
          exact ⟨u, by rw [other u hut]; exact hu, e⟩
    · intro i
      have e4 : (σ.step o tasks t).node.penalties = σ.node.penalties := by rw [nodeEq]; rfl
      rw [h.pen i, e4, owes_same (pc := σ.pc) (pc' := (σ.step o tasks t).pc)]
      intro u _
      by_cases hu : u = t
      · subst hu; rw [self', hpc]; exact ⟨(fun e => by cases e), (fun e => by cases e)⟩
      · rw [other u hu]
  | good id =>
    left
    rw [hpc] at hpt self nodeEq
    obtain ⟨hl, hv⟩ := hpt
    have e1 : (σ.step o tasks t).node.buckets = σ.node.buckets := by rw [nodeEq]; rfl
    have e2 : (σ.step o tasks t).node.known = σ.node.known := by rw [nodeEq]; rfl
    have e3 : (σ.step o tasks t).node.adnl = σ.node.adnl := by rw [nodeEq]; rfl
    have self' : (σ.step o tasks t).pc t = .done (.some id) := self
    refine ⟨⟨by rw [e1]; exact h.tabs.loc, by rw [e3]; exact h.tabs.peers⟩, h.tabs',
      by rw [e2]; exact h.known, h.nodup, ?_, ?_, ?_, ?_, ?_⟩
    · intro u
      by_cases hu : u = t
      · subst hu; rw [self']; exact ⟨hl, hv⟩
      · rw [other u hu]; exact h.place u
    · intro u i e
      by_cases hu : u = t
      · subst hu; rw [self'] at e; cases e
      · rw [other u hu] at e; exact h.pending u i e
    · intro i n hn; rw [e1] at hn; exact h.below i n hn
    · intro i n hn
      rw [e1]
      rcases h.reached i n hn with hm | ⟨u, hu, e⟩
      · exact .inl hm
      · right
        have hut : u ≠ t := by rintro rfl; rw [hpc] at hu; cases hu
        exact ⟨u, by rw [other u hut]; exact hu, e⟩
    · intro i
      have e4 : (σ.step o tasks t).node.penalties = setGood σ.node.penalties id := by rw [nodeEq]; rfl
      rw [h.pen i, e4, setGood_get]
      by_cases e : i = id
      · subst e
        rw [if_pos rfl, owes_paid hpc (by rw [self']; exact Pc.noConfusion) other hl h.nodup]
        cases σ.node.penalties.get i with
        | none => rfl
        | some n => simp; omega
      · rw [if_neg e, owes_same (pc := σ.pc) (pc' := (σ.step o tasks t).pc)]
        intro u _
        by_cases hu : u = t
        · subst hu
          rw [self', hpc]
          exact ⟨(fun x => by cases x), (fun x => by cases x; exact absurd rfl e)⟩
        · rw [other u hu]
  | done r =>
    left
    rw [hpc] at hpt self nodeEq
    have : σ.step o tasks t = σ := by
      have hpcs : (σ.step o tasks t).pc = σ.pc := by
        funext u
        by_cases hu : u = t
        · subst hu; rw [self, hpc]; rfl
        · exact other u hu
      have hn : (σ.step o tasks t).node = σ.node := by rw [nodeEq]; rfl
      cases hσ : σ.step o tasks t
      cases σ
      simp_all
    rw [this]; exact h

theorem run_append (o : Opts c) (tasks : Nat → Task c) (σ : Sys c) (a b : List Nat) :
    σ.run o tasks (a ++ b) = (σ.run o tasks a).run o tasks b := by simp [Sys.run, List.foldl_append]

theorem tabs_run (o : Opts c) (localId : Bytes) (tasks : Nat → Task c) : ∀ (l : List Nat) (s : State c),
    Tabs localId s → Tabs localId (Dht.run o s (l.map fun t => (tasks t).op)) := by
  intro l
  induction l with
  | nil => intro s h; exact h
  | cons t l ih => intro s h; exact ih _ (seq_step o localId s h (tasks t)).1

theorem inv_run (o : Opts c) (localId : Bytes) (tasks : Nat → Task c) : ∀ (sched : List Nat) (l : List Nat)
    (σ : Sys c) (s : State c), Inv o localId tasks l σ s →
    ∃ l', Inv o localId tasks (l ++ l') (σ.run o tasks sched) (Dht.run o s (l'.map fun t => (tasks t).op)) ∧
      ∀ pre post, sched = pre ++ post → ∃ x y, l' = x ++ y ∧
        Inv o localId tasks (l ++ x) (σ.run o tasks pre) (Dht.run o s (x.map fun t => (tasks t).op)) := by
  intro sched
  induction sched with
  | nil =>
    intro l σ s h
    have h' : Inv o localId tasks (l ++ []) (σ.run o tasks []) (Dht.run o s []) := by
      simpa [Sys.run, Dht.run] using h
    refine ⟨[], h', ?_⟩
    intro pre post e
    obtain ⟨rfl, rfl⟩ := List.nil_eq_append_iff.mp e
    exact ⟨[], [], rfl, h'⟩
  | cons t ts ih =>
    intro l σ s h
    have h0 : Inv o localId tasks (l ++ []) (σ.run o tasks []) (Dht.run o s []) := by
      simpa [Sys.run, Dht.run] using h
    rcases inv_step h t with h' | ⟨-, h'⟩
    · obtain ⟨l', hl', hp⟩ := ih l _ s h'
      refine ⟨l', hl', ?_⟩
      intro pre post e
      cases pre with
      | nil => exact ⟨[], l', rfl, h0⟩
      | cons u pre =>
        rw [List.cons_append, List.cons.injEq] at e
        obtain ⟨rfl, e⟩ := e
        exact hp pre post e
    · obtain ⟨l', hl', hp⟩ := ih (l ++ [t]) _ _ h'
      rw [List.append_assoc] at hl'
      refine ⟨t :: l', hl', ?_⟩
      intro pre post e
      cases pre with
      | nil => exact ⟨[], t :: l', rfl, h0⟩
      | cons u pre =>
        rw [List.cons_append, List.cons.injEq] at e
        obtain ⟨rfl, e⟩ := e
        obtain ⟨x, y, exy, hi⟩ := hp pre post e
        rw [List.append_assoc] at hi
        exact ⟨t :: x, y, by rw [exy]; rfl, hi⟩

/-- No call is on its way: every task has not begun or has returned. -/
def Quiet (σ : Sys c) : Prop := ∀ t, σ.pc t = .start ∨ ∃ r, σ.pc t = .done r

/-- **C136** Calls of `add_dht_peer` by any number of tasks, interleaved in any way, are as good as calls
one after another: there is an order of the tasks that returned, in which a call that returned before
another one began comes first, and making the calls in this order gives the same set of known peers, the
same peers in the routing table with the same versions, the same penalties, and the same answer to every caller. -/
theorem C136_like_one_after_another (o : Opts c) (s : State c)
    (hp : (s.adnl.peers.get s.buckets.localId).isSome) (tasks : Nat → Task c) (sched : List Nat)
    (hq : Quiet ((Sys.init s).run o tasks sched)) :
    ∃ order : List Nat, order.Nodup ∧
      (∀ t, t ∈ order ↔ ∃ r, ((Sys.init s).run o tasks sched).pc t = .done r) ∧
      (∀ pre post a b r, sched = pre ++ post → ((Sys.init s).run o tasks pre).pc a = .done r →
        ((Sys.init s).run o tasks pre).pc b = .start → b ∈ order →
        ∃ x y, order = x ++ y ∧ a ∈ x ∧ b ∈ y) ∧
      ((Sys.init s).run o tasks sched).node.known = (Dht.run o s (order.map fun t => (tasks t).op)).known ∧
      (∀ id, (Buckets.lookup ((Sys.init s).run o tasks sched).node.buckets id).map (·.version) =
        (Buckets.lookup (Dht.run o s (order.map fun t => (tasks t).op)).buckets id).map (·.version)) ∧
      (∀ id, ((Sys.init s).run o tasks sched).node.penalties.get id =
        (Dht.run o s (order.map fun t => (tasks t).op)).penalties.get id) ∧
      (∀ t x y r, order = x ++ t :: y → ((Sys.init s).run o tasks sched).pc t = .done r →
        (addDhtPeer o (tasks t).now (Dht.run o s (x.map fun t => (tasks t).op))
          (tasks t).node (tasks t).key).2 = r) := by
  have h0 : Tabs s.buckets.localId s := ⟨rfl, hp⟩
  obtain ⟨order, hi, hpre⟩ := inv_run o _ tasks sched [] _ s (inv_init o _ tasks s h0)
  rw [List.nil_append] at hi
  refine ⟨order, hi.nodup, ?_, ?_, hi.known, ?_, ?_, ?_⟩
  · intro t
    have hpl := hi.place t
    rcases hq t with e | ⟨r, e⟩
    · rw [e] at hpl ⊢
      exact ⟨fun h => absurd h hpl, fun ⟨r, h⟩ => by cases h⟩
    · rw [e] at hpl ⊢
      exact ⟨fun _ => ⟨r, rfl⟩, fun _ => hpl.1⟩
  · intro pre post a b r e ha hb hbo
    obtain ⟨x, y, exy, hx⟩ := hpre pre post e
    rw [List.nil_append] at hx
    have pa := hx.place a
    have pb := hx.place b
    rw [ha] at pa
    rw [hb] at pb
    refine ⟨x, y, exy, pa.1, ?_⟩
    rw [exy, List.mem_append] at hbo
    exact hbo.resolve_left pb
  · intro id
    cases hs : Buckets.lookup (Dht.run o s (order.map fun t => (tasks t).op)).buckets id with
    | none =>
      cases hσ : Buckets.lookup ((Sys.init s).run o tasks sched).node.buckets id with
      | none => rfl
      | some n =>
        obtain ⟨n', hn', -⟩ := hi.below id n hσ
        rw [hs] at hn'; cases hn'
    | some n' =>
      rcases hi.reached id n' hs with ⟨n, hn, e⟩ | ⟨t, ht, -⟩
      · rw [hn]; simp [e]
      · rcases hq t with e | ⟨r, e⟩ <;> rw [ht] at e <;> cases e
  · intro id
    have h0 : owes order ((Sys.init s).run o tasks sched).pc id = 0 := by
      unfold owes
      rw [List.countP_eq_zero]
      intro t _
      rcases hq t with e | ⟨r, e⟩ <;> simp [e]
    rw [hi.pen id, h0]
    simp
  · intro t x y r e ht
    have hpl := hi.place t
    rw [ht] at hpl
    rw [(seq_step o _ _ (tabs_run o _ tasks x s h0) (tasks t)).2.1]
    exact hpl.2

theorem contains_insert {s : PeersSet.State Bytes} {p x : Bytes}
    (h : PeersSet.contains (PeersSet.insert s p).1 x = true) : x = p ∨ PeersSet.contains s x = true := by
  by_cases e : x = p
  · exact .inl e
  · right
    unfold PeersSet.insert at h
    cases hg : s.cache.get p with
    | some i => simpa only [hg] using h
    | none =>
      simp only [hg] at h
      unfold PeersSet.contains at h ⊢
      split at h
      · simp only at h
        split at h
        · rw [AMap.get_erase] at h
          split at h
          · simp at h
          · rwa [AMap.get_put_ne _ _ e] at h
        · rwa [AMap.get_put_ne _ _ e] at h
      · rwa [AMap.get_put_ne _ _ e] at h

structure Moment (localId : Bytes) (tasks : Nat → Task c) (σ : Sys c) : Prop where
  loc : σ.node.buckets.localId = localId
  nodes : ∀ j id n, (id, n) ∈ σ.node.buckets.bucket j → NodeOk c localId id n
  carried : ∀ t id, σ.pc t = .known id ∨ σ.pc t = .bucket id → NodeOk c localId id (tasks t).node
  asked : ∀ id, Asks σ.node id →
    (∃ n, Buckets.lookup σ.node.buckets id = some n) ∨ ∃ t, σ.pc t = .bucket id

/-- What the first step lets through. -/
theorem start_ok (o : Opts c) (s : State c) (k : Task c) (id : Bytes)
    (h : (stepOf o s k .start).2 = .known id) : NodeOk c s.buckets.localId id k.node := by
  simp only [stepOf] at h
  cases hf : Receiver.fullId c k.node.id with
  | none => rw [hf] at h; cases h
  | some pub =>
    simp only [hf] at h
    split at h
    · cases h
    · rename_i hv
      cases hpa : parse o.adnl.build k.now o.adnl.clockTolerance k.node.addrList with
      | ok addr =>
        simp only [hpa] at h
        cases ha : Node.addPeer o.adnl s.adnl s.buckets.localId (Node.shortId c pub) addr pub k.key with
        | mk adnl r =>
          rw [ha] at h
          cases r with
          | peersNotFound => cases h
          | no => cases h
          | yes =>
            obtain rfl := Pc.known.inj h
            have hne : Node.shortId c pub ≠ s.buckets.localId := by
              intro e
              rw [Node.addPeer, if_pos (.inl e)] at ha
              cases ha
            have hv' : verifySig c pub (writeDNodeBoxed { k.node with signature := [] }) k.node.signature
                = true := by simpa using hv
            simp only [verifySig, Bool.and_eq_true, decide_eq_true_eq] at hv'
            cases hk : k.node.id with
            | ed25519 x =>
              rw [hk] at hf
              exact ⟨x, pub, hk, hf, rfl, hne, hv'.1, hv'.2⟩
            | aes x => rw [hk] at hf; cases hf
            | overlay x => rw [hk] at hf; cases hf
            | unenc x => rw [hk] at hf; cases hf
      | listIsEmpty => rw [hpa] at h; cases h
      | tooNew => rw [hpa] at h; cases h
      | expired => rw [hpa] at h; cases h
      | panic => rw [hpa] at h; cases h

theorem start_keeps (o : Opts c) (s : State c) (k : Task c) :
    (stepOf o s k .start).1.known = s.known ∧ (stepOf o s k .start).1.buckets = s.buckets ∧
    ∀ id, (stepOf o s k .start).2 ≠ .bucket id := by
  simp only [stepOf]
  split
  · exact ⟨rfl, rfl, by simp⟩
  · split
    · exact ⟨rfl, rfl, by simp⟩
    · split
      · split <;> exact ⟨rfl, rfl, by simp⟩
      · exact ⟨rfl, rfl, by simp⟩

theorem moment_step {o : Opts c} {localId : Bytes} {tasks : Nat → Task c} {σ : Sys c}
    (h : Moment localId tasks σ) (t : Nat) : Moment localId tasks (σ.step o tasks t) := by
  have other : ∀ u, u ≠ t → (σ.step o tasks t).pc u = σ.pc u := fun u hu => by simp [Sys.step, hu]
  have self : (σ.step o tasks t).pc t = (stepOf o σ.node (tasks t) (σ.pc t)).2 := by simp [Sys.step]
  have nodeEq : (σ.step o tasks t).node = (stepOf o σ.node (tasks t) (σ.pc t)).1 := rfl
  cases hpc : σ.pc t with
  | start =>
    rw [hpc] at self nodeEq
    obtain ⟨k1, k2, k3⟩ := start_keeps o σ.node (tasks t)
    refine ⟨by rw [nodeEq, k2]; exact h.loc, by rw [nodeEq, k2]; exact h.nodes, ?_, ?_⟩
    · intro u id e
      by_cases hu : u = t
      · subst hu
        rw [self] at e
        rcases e with e | e
        · rw [← h.loc]; exact start_ok o σ.node (tasks u) id e
        · exact absurd e (k3 id)
      · rw [other u hu] at e; exact h.carried u id e
    · intro id ha
      have ha' : Asks σ.node id := by
        unfold Asks at ha ⊢; rwa [nodeEq, k1] at ha
      rw [nodeEq, k2]
      rcases h.asked id ha' with hn | ⟨u, hu⟩
      · exact .inl hn
      · have hut : u ≠ t := by rintro rfl; rw [hpc] at hu; cases hu
        exact .inr ⟨u, by rw [other u hut]; exact hu⟩
  | known id0 =>
    rw [hpc] at self nodeEq
    have e1 : (σ.step o tasks t).node.buckets = σ.node.buckets := by rw [nodeEq]; rfl
    have e2 : (σ.step o tasks t).node.known = (PeersSet.insert σ.node.known id0).1 := by rw [nodeEq]; rfl
    have self' : (σ.step o tasks t).pc t =
        if (PeersSet.insert σ.node.known id0).2 then .bucket id0 else .good id0 := self
    refine ⟨by rw [e1]; exact h.loc, by rw [e1]; exact h.nodes, ?_, ?_⟩
    · intro u id e
      by_cases hu : u = t
      · subst hu
        rw [self'] at e
        split at e
        · rcases e with e | e
          · cases e
          · obtain rfl := Pc.bucket.inj e; exact h.carried u _ (.inl hpc)
        · rcases e with e | e <;> cases e
      · rw [other u hu] at e; exact h.carried u id e
    · intro id ha
      unfold Asks at ha
      rw [e2] at ha
      rw [e1]
      have old : Asks σ.node id → (∃ n, Buckets.lookup σ.node.buckets id = some n) ∨
          ∃ u, (σ.step o tasks t).pc u = .bucket id := by
        intro ha'
        rcases h.asked id ha' with hn | ⟨u, hu⟩
        · exact .inl hn
        · have hut : u ≠ t := by rintro rfl; rw [hpc] at hu; cases hu
          exact .inr ⟨u, by rw [other u hut]; exact hu⟩
      by_cases hi : (PeersSet.insert σ.node.known id0).2 = true
      · rcases contains_insert ha with rfl | ha'
        · exact .inr ⟨t, by rw [self', if_pos hi]⟩
        · exact old ha'
      · rw [insert_false hi] at ha
        exact old ha
  | bucket id0 =>
    rw [hpc] at self nodeEq
    have e1 : (σ.step o tasks t).node.buckets = Buckets.insert σ.node.buckets id0 (tasks t).node := by
      rw [nodeEq]; rfl
    have e2 : (σ.step o tasks t).node.known = σ.node.known := by rw [nodeEq]; rfl
    have self' : (σ.step o tasks t).pc t = .done (.some id0) := self
    refine ⟨by rw [e1]; exact h.loc, ?_, ?_, ?_⟩
    · intro j id n hm
      rw [e1] at hm
      simp only [Buckets.insert] at hm
      split at hm
      · rcases Buckets.insertInto_mem hm with hm | hm
        · exact h.nodes _ _ _ hm
        · cases hm; exact h.carried t _ (.inr hpc)
      · exact h.nodes _ _ _ hm
    · intro u id e
      by_cases hu : u = t
      · subst hu; rw [self'] at e; rcases e with e | e <;> cases e
      · rw [other u hu] at e; exact h.carried u id e
    · intro id ha
      unfold Asks at ha
      rw [e2] at ha
      rw [e1]
      by_cases hid : id = id0
      · subst hid; exact .inl (insert_some _ _ _)
      · rw [insert_other _ _ _ _ hid]
        rcases h.asked id ha with hn | ⟨u, hu⟩
        · exact .inl hn
        · have hut : u ≠ t := by
            rintro rfl
            rw [hpc] at hu
            exact hid (Pc.bucket.inj hu).symm
          exact .inr ⟨u, by rw [other u hut]; exact hu⟩
  | good id0 =>
    rw [hpc] at self nodeEq
    have e1 : (σ.step o tasks t).node.buckets = σ.node.buckets := by rw [nodeEq]; rfl
    have e2 : (σ.step o tasks t).node.known = σ.node.known := by rw [nodeEq]; rfl
    have self' : (σ.step o tasks t).pc t = .done (.some id0) := self
    refine ⟨by rw [e1]; exact h.loc, by rw [e1]; exact h.nodes, ?_, ?_⟩
    · intro u id e
      by_cases hu : u = t
      · subst hu; rw [self'] at e; rcases e with e | e <;> cases e
      · rw [other u hu] at e; exact h.carried u id e
    · intro id ha
      unfold Asks at ha
      rw [e2] at ha
      rw [e1]
      rcases h.asked id ha with hn | ⟨u, hu⟩
      · exact .inl hn
      · have hut : u ≠ t := by rintro rfl; rw [hpc] at hu; cases hu
        exact .inr ⟨u, by rw [other u hut]; exact hu⟩
  | done r =>
    rw [hpc] at self nodeEq
    have e0 : (σ.step o tasks t).node = σ.node := by rw [nodeEq]; rfl
    have e1 : ∀ u, (σ.step o tasks t).pc u = σ.pc u := by
      intro u
      by_cases hu : u = t
      · subst hu; rw [self, hpc]; rfl
      · exact other u hu
    exact ⟨by rw [e0]; exact h.loc, by rw [e0]; exact h.nodes,
      fun u id e => h.carried u id (by rwa [e1] at e), fun id ha => by
        rw [e0] at ha ⊢
        rcases h.asked id ha with hn | ⟨u, hu⟩
        · exact .inl hn
        · exact .inr ⟨u, by rw [e1]; exact hu⟩⟩

/-- **C136** At every moment, also with calls on their way: every record in the routing table is signed by
the node it names and stored under the hash of its key; and a peer that is asked but not yet told to others
is in the hands of a task that is about to put it into the routing table. -/
theorem C136_at_every_moment (o : Opts c) (adnl : Node.State c) (localId : Bytes) (maxPeers : Nat)
    (tasks : Nat → Task c) (sched : List Nat) :
    (∀ j id n, (id, n) ∈ ((Sys.init (init adnl localId maxPeers)).run o tasks sched).node.buckets.bucket j →
      NodeOk c localId id n) ∧
    ∀ id, Asks ((Sys.init (init adnl localId maxPeers)).run o tasks sched).node id →
      Tells ((Sys.init (init adnl localId maxPeers)).run o tasks sched).node id ∨
      ∃ t, ((Sys.init (init adnl localId maxPeers)).run o tasks sched).pc t = .bucket id := by
  have hm : Moment localId tasks ((Sys.init (init adnl localId maxPeers)).run o tasks sched) := by
    have h0 : Moment localId tasks (Sys.init (init (c := c) adnl localId maxPeers)) := by
      refine ⟨rfl, ?_, ?_, ?_⟩
      · intro j id n h; simp [Sys.init, init, Buckets.new] at h
      · intro t id h; simp [Sys.init] at h
      · intro id h
        simp [Sys.init, Asks, init, PeersSet.contains, PeersSet.withCapacity] at h
    generalize Sys.init (init (c := c) adnl localId maxPeers) = σ at h0
    unfold Sys.run
    induction sched generalizing σ with
    | nil => exact h0
    | cons t ts ih => exact ih _ (moment_step h0 t)
  refine ⟨hm.nodes, ?_⟩
  intro id ha
  rcases hm.asked id ha with ⟨n, hn⟩ | ht
  · exact .inl ⟨n, AMap.mem_of_get hn⟩
  · exact .inr ht

/-! ### Non-vacuity -/

/-- Two tasks learn of node 1 (versions 1 and 2), one of node 2. -/
def three : Nat → Task Crypto.toy := fun t =>
  ⟨1000, (7 : UInt8), if t = 0 then Example.node 1 1 else if t = 1 then Example.node 2 1 else Example.node 1 2⟩

/-- The node has room for one peer only: task 0 has entered node 1, which is replaced by node 2 (task 1);
then task 2 enters node 1 again with a newer record and returns before task 0. -/
def crossing : List Nat := [0, 0, 1, 2, 1, 2, 2, 1, 0]

theorem crossing_quiet : Quiet ((Sys.init smallStart).run Example.o three crossing) := by
  intro t
  by_cases h0 : t = 0
  · subst h0; right; exact ⟨.some (Node.shortId Crypto.toy (1 : UInt8)), by decide +kernel⟩
  by_cases h1 : t = 1
  · subst h1; right; exact ⟨.some (Node.shortId Crypto.toy (2 : UInt8)), by decide +kernel⟩
  by_cases h2 : t = 2
  · subst h2; right; exact ⟨.some (Node.shortId Crypto.toy (1 : UInt8)), by decide +kernel⟩
  · left
    have : ∀ (l : List Nat) (σ : Sys Crypto.toy), t ∉ l →
        (σ.run Example.o three l).pc t = σ.pc t := by
      intro l
      induction l with
      | nil => intro σ _; rfl
      | cons u us ih =>
        intro σ hn
        rw [List.mem_cons, not_or] at hn
        show ((σ.step Example.o three u).run Example.o three us).pc t = _
        rw [ih _ hn.2]
        simp [Sys.step, hn.1]
    rw [this crossing _ (by simp [crossing, h0, h1, h2])]
    rfl

example := C136_like_one_after_another Example.o smallStart (by decide +kernel) three crossing crossing_quiet

/-- The record with version 2 is the one kept although task 0 stored version 1 last. -/
example : (Buckets.lookup ((Sys.init smallStart).run Example.o three crossing).node.buckets
    (Node.shortId Crypto.toy (1 : UInt8))).map (·.version) = some 2 := by decide +kernel

/-- A moment at which node 1 is asked and not yet told. -/
example : ∃ t, ((Sys.init smallStart).run Example.o three [0, 0]).pc t =
    .bucket (Node.shortId Crypto.toy (1 : UInt8)) :=
  ((C136_at_every_moment Example.o ⟨[(Example.localId, [])], [], 0, [], []⟩ Example.localId 1 three [0, 0]).2
    (Node.shortId Crypto.toy (1 : UInt8)) (show _ = _ by decide +kernel)).resolve_left (by
      rintro ⟨n, hn⟩
      have : ((Sys.init smallStart).run Example.o three [0, 0]).node.buckets.bucket
        (Buckets.affinity Example.localId (Node.shortId Crypto.toy (1 : UInt8))) = [] := by decide +kernel
      exact absurd (this ▸ hn) (by simp))

end Verif.DhtConc
