import Verif.Model.ChannelConc
import Verif.Proofs.AMap
import Mathlib.Data.List.Nodup
import Mathlib.Tactic.Common

/-!
# C100: the channel tables stay consistent when packets are handled concurrently
-/
namespace Verif.ChannelConc

/-- The ids of channels are derived from the keys of both sides, so channels that have an id in common are for the
same pair of ids and have the same keys (or there is a collision of hashes); the two ids of a channel differ. -/
structure KeysDecide (jobs : Nat → Job) : Prop where
  own : ∀ i loc ch, jobs i = .create loc ch → ch.ord ≠ ch.prio
  other : ∀ i j loc loc' ch ch' id, jobs i = .create loc ch → jobs j = .create loc' ch' →
    (id = ch.ord ∨ id = ch.prio) → (id = ch'.ord ∨ id = ch'.prio) →
    loc = loc' ∧ ch.peer = ch'.peer ∧ ch.key = ch'.key ∧ ch.ord = ch'.ord ∧ ch.prio = ch'.prio

/-- No thread is in the middle of its job. -/
def Quiet (σ : Sys) : Prop := ∀ i todo entry, σ.pc i ≠ .busy todo entry

/-- Every channel used for sending is also listed for receiving, under both ids. -/
def Usable (σ : Sys) : Prop := ∀ p ch, σ.byPeer.get p = some ch →
  (∃ a, σ.byId.get ch.ord = some a ∧ a.peer = p ∧ a.key = ch.key) ∧
  (∃ b, σ.byId.get ch.prio = some b ∧ b.peer = p ∧ b.key = ch.key)

/-- Every id that is listed is one of a channel used for sending. -/
def NoStale (σ : Sys) : Prop := ∀ id ch, σ.byId.get id = some ch →
  ∃ ch', σ.byPeer.get ch.peer = some ch' ∧ (id = ch'.ord ∨ id = ch'.prio)

/-- C100 as stated: whatever tasks run in whatever order, the tables fit together when nothing is going on. -/
def C100_full : Prop := ∀ (jobs : Nat → Job), KeysDecide jobs → ∀ sched, Quiet (run jobs init sched) →
  Usable (run jobs init sched) ∧ NoStale (run jobs init sched)

@[simp] theorem upd_same {α β : Type} [DecidableEq α] (f : α → β) (a : α) (b : β) : upd f a b a = b := if_pos rfl

theorem upd_ne {α β : Type} [DecidableEq α] (f : α → β) {a x : α} (b : β) (h : x ≠ a) : upd f a b x = f x := if_neg h

/-! ### What thread `i` does in a step -/

section
variable {jobs : Nat → Job}

/-- The steps in relational form. -/
inductive Step (jobs : Nat → Job) (σ : Sys) (i : Nat) : Sys → Prop
  | stay : Step jobs σ i σ
  /-- a job that finds nothing to do -/
  | nothing (hi : σ.pc i = .idle) (σ' : Sys) (h1 : σ'.byPeer = σ.byPeer) (h2 : σ'.byId = σ.byId)
      (h3 : σ'.pc = upd σ.pc i .done) (h4 : σ'.locked = σ.locked) (h5 : σ'.readers = σ.readers)
      (h6 : ∀ x, σ'.writer x = true → σ.writer x = true) (h7 : ∀ loc p, jobs i = .reset loc p → σ.writer (loc, p) = false)
      (h8 : ∀ x, σ.writer x = true → σ'.writer x = true) : Step jobs σ i σ'
  /-- a channel where there was none -/
  | vacant (loc : Bytes) (ch : Chan) (hi : σ.pc i = .idle) (hj : jobs i = .create loc ch)
      (hl : σ.locked ch.peer = false) (hw : σ.writer (loc, ch.peer) = false) (hg : σ.byPeer.get ch.peer = none)
      (σ' : Sys) (h1 : σ'.byPeer = σ.byPeer.put ch.peer ch) (h2 : σ'.byId = σ.byId)
      (h3 : σ'.pc = upd σ.pc i (.busy [.ins ch.ord ch, .ins ch.prio ch] false)) (h4 : σ'.locked = σ.locked)
      (h5 : σ'.readers = upd σ.readers (loc, ch.peer) (σ.readers (loc, ch.peer) + 1)) (h6 : σ'.writer = σ.writer) :
      Step jobs σ i σ'
  /-- a channel replaced by another one -/
  | replace (loc : Bytes) (ch old : Chan) (hi : σ.pc i = .idle) (hj : jobs i = .create loc ch)
      (hl : σ.locked ch.peer = false) (hw : σ.writer (loc, ch.peer) = false) (hg : σ.byPeer.get ch.peer = some old)
      (hv : stillValid old ch = false)
      (σ' : Sys) (h1 : σ'.byPeer = σ.byPeer.put ch.peer ch) (h2 : σ'.byId = σ.byId)
      (h3 : σ'.pc = upd σ.pc i (.busy [.del old.ord, .del old.prio, .ins ch.ord ch, .ins ch.prio ch] true))
      (h4 : σ'.locked = upd σ.locked ch.peer true)
      (h5 : σ'.readers = upd σ.readers (loc, ch.peer) (σ.readers (loc, ch.peer) + 1)) (h6 : σ'.writer = σ.writer) :
      Step jobs σ i σ'
  /-- a channel dropped -/
  | drop (old : Chan) (hi : σ.pc i = .idle) (hj : ∀ loc ch, jobs i ≠ .create loc ch)
      (hl : σ.locked (jobs i).peer = false) (hg : σ.byPeer.get (jobs i).peer = some old)
      (hr : ∀ loc p, jobs i = .reset loc p → σ.writer (loc, p) = false ∧ σ.readers (loc, p) = 0)
      (σ' : Sys) (h1 : σ'.byPeer = σ.byPeer.erase (jobs i).peer) (h2 : σ'.byId = σ.byId)
      (h3 : σ'.pc = upd σ.pc i (.busy [.del old.ord, .del old.prio] false)) (h4 : σ'.locked = σ.locked)
      (h5 : σ'.readers = σ.readers)
      (h6 : σ'.writer = match jobs i with | .reset loc p => upd σ.writer (loc, p) true | _ => σ.writer) :
      Step jobs σ i σ'
  /-- an access to the table of ids -/
  | access (a : Act) (todo : List Act) (entry : Bool) (hi : σ.pc i = .busy (a :: todo) entry)
      (σ' : Sys) (h1 : σ'.byPeer = σ.byPeer) (h2 : σ'.byId = act σ.byId a)
      (h3 : σ'.pc = upd σ.pc i (.busy todo entry)) (h4 : σ'.locked = σ.locked)
      (h5 : σ'.readers = σ.readers) (h6 : σ'.writer = σ.writer) : Step jobs σ i σ'
  /-- the end -/
  | finish (entry : Bool) (hi : σ.pc i = .busy [] entry)
      (σ' : Sys) (h1 : σ'.byPeer = σ.byPeer) (h2 : σ'.byId = σ.byId) (h3 : σ'.pc = upd σ.pc i .done)
      (h4 : σ'.locked = if entry then upd σ.locked (jobs i).peer false else σ.locked)
      (h5 : σ'.readers = match jobs i with
        | .create loc ch => upd σ.readers (loc, ch.peer) (σ.readers (loc, ch.peer) - 1)
        | _ => σ.readers)
      (h6 : σ'.writer = match jobs i with | .reset loc p => upd σ.writer (loc, p) false | _ => σ.writer) :
      Step jobs σ i σ'

theorem step_rel (jobs : Nat → Job) (σ : Sys) (i : Nat) : Step jobs σ i (step jobs σ i) := by
  unfold step
  cases hi : σ.pc i with
  | done => exact .stay
  | busy todo entry =>
    cases todo with
    | nil =>
      refine .finish entry hi _ ?_ ?_ ?_ ?_ ?_ ?_ <;> unfold release <;> cases entry <;> cases jobs i <;> rfl
    | cons a todo => exact .access a todo entry hi _ rfl rfl rfl rfl rfl rfl
  | idle =>
    simp only
    cases hj : jobs i with
    | create loc ch =>
      simp only [begin]
      by_cases hb : (σ.locked ch.peer || σ.writer (loc, ch.peer)) = true
      · rw [if_pos hb]; exact .stay
      rw [if_neg hb]
      simp only [Bool.or_eq_true, not_or, Bool.not_eq_true] at hb
      cases hg : σ.byPeer.get ch.peer with
      | none => exact .vacant loc ch hi hj hb.1 hb.2 hg _ rfl rfl rfl rfl rfl rfl
      | some old =>
        simp only
        by_cases hv : stillValid old ch = true
        · rw [if_pos hv]
          refine .nothing hi _ rfl rfl rfl rfl ?_ (fun _ h => h) (fun _ _ h => by rw [hj] at h; cases h) (fun _ h => h)
          funext x
          simp only [release, upd]
          by_cases hx : x = (loc, ch.peer)
          · subst hx; simp
          · simp [hx, upd]
        · rw [if_neg hv]
          exact .replace loc ch old hi hj hb.1 hb.2 hg (by simpa using hv) _ rfl rfl rfl rfl rfl rfl
    | remove p =>
      simp only [begin]
      by_cases hb : σ.locked p = true
      · rw [if_pos hb]; exact .stay
      rw [if_neg hb]
      unfold begin_drop
      cases hg : σ.byPeer.get (Job.remove p).peer with
      | none =>
        exact .nothing hi _ rfl rfl rfl rfl rfl (fun _ h => h) (fun _ _ h => by rw [hj] at h; cases h) (fun _ h => h)
      | some old =>
        exact .drop old hi (by rw [hj]; simp) (by rw [hj]; exact Bool.eq_false_iff.mpr hb) (by rw [hj]; exact hg)
          (by rw [hj]; simp) _ (by rw [hj]) rfl rfl rfl rfl (by rw [hj])
    | reset loc p =>
      simp only [begin]
      by_cases hb : (σ.locked p || σ.writer (loc, p) || decide (0 < σ.readers (loc, p))) = true
      · rw [if_pos hb]; exact .stay
      rw [if_neg hb]
      simp only [Bool.or_eq_true, decide_eq_true_eq, not_or, Bool.not_eq_true, Nat.not_lt, Nat.le_zero] at hb
      unfold begin_drop
      simp only
      cases hg : σ.byPeer.get (Job.reset loc p).peer with
      | none =>
        refine .nothing hi _ rfl rfl rfl rfl rfl ?_ ?_ ?_
        · intro x hx
          simp only [release, upd] at hx
          by_cases h : x = (loc, p)
          · simp [h] at hx
          · simpa [h, upd] using hx
        · intro loc' p' h
          rw [hj] at h
          cases h
          exact hb.1.2
        · intro x hx
          simp only [release, upd]
          by_cases h : x = (loc, p)
          · rw [h, hb.1.2] at hx; cases hx
          · simpa [h, upd] using hx
      | some old =>
        refine .drop old hi (by rw [hj]; simp) (by rw [hj]; exact hb.1.1) (by rw [hj]; exact hg) ?_ _ (by rw [hj])
          rfl rfl rfl rfl (by rw [hj])
        intro loc' p' h
        rw [hj] at h
        cases h
        exact ⟨hb.1.2, hb.2⟩

/-- All jobs are for one local id, and none of them removes a peer. -/
def OneLocal (jobs : Nat → Job) (l : Bytes) : Prop :=
  ∀ i, (∃ ch, jobs i = .create l ch) ∨ ∃ p, jobs i = .reset l p

/-- The invariant behind `C100_usable_partial`. -/
structure Inv (jobs : Nat → Job) (l : Bytes) (σ : Sys) : Prop where
  peer : ∀ q ch, σ.byPeer.get q = some ch → ch.peer = q ∧ ∃ j, jobs j = .create l ch
  ids : ∀ id ch, σ.byId.get id = some ch → (id = ch.ord ∨ id = ch.prio) ∧ ∃ j, jobs j = .create l ch
  shapeC : ∀ i ch todo e, jobs i = .create l ch → σ.pc i = .busy todo e → ∀ a ∈ todo,
    a = .ins ch.ord ch ∨ a = .ins ch.prio ch ∨
    (e = true ∧ ∃ old j, jobs j = .create l old ∧ old.peer = ch.peer ∧ old.key ≠ ch.key ∧
      (a = .del old.ord ∨ a = .del old.prio))
  shapeR : ∀ i p todo e, jobs i = .reset l p → σ.pc i = .busy todo e → e = false ∧ ∀ a ∈ todo,
    ∃ old j, jobs j = .create l old ∧ old.peer = p ∧ (a = .del old.ord ∨ a = .del old.prio)
  lockE : ∀ i ch todo, jobs i = .create l ch → σ.pc i = .busy todo true →
    σ.locked ch.peer = true ∧ σ.byPeer.get ch.peer = some ch
  lockU : ∀ i j ch ch' todo todo', jobs i = .create l ch → jobs j = .create l ch' →
    σ.pc i = .busy todo true → σ.pc j = .busy todo' true → ch.peer = ch'.peer → i = j
  wr : ∀ i p todo e, jobs i = .reset l p → σ.pc i = .busy todo e →
    σ.writer (l, p) = true ∧ σ.byPeer.get p = none
  wrU : ∀ i j p todo e todo' e', jobs i = .reset l p → jobs j = .reset l p →
    σ.pc i = .busy todo e → σ.pc j = .busy todo' e' → i = j
  pend : ∀ q ch, σ.byPeer.get q = some ch → ∀ id, (id = ch.ord ∨ id = ch.prio) →
    (∃ a, σ.byId.get id = some a) ∨ ∃ k c todo e, σ.pc k = .busy todo e ∧ Act.ins id c ∈ todo

theorem inv_init (l : Bytes) : Inv jobs l init := by
  constructor <;> intros <;> simp_all [init, AMap.get]

/-- The program counters of threads after a step of thread `i`. -/
theorem pc_upd {σ : Sys} {i k : Nat} {v : Pc} {todo : List Act} {e : Bool} (h : upd σ.pc i v k = .busy todo e) :
    (k = i ∧ v = .busy todo e) ∨ (k ≠ i ∧ σ.pc k = .busy todo e) := by
  by_cases hk : k = i
  · subst hk; exact .inl ⟨rfl, by simpa using h⟩
  · exact .inr ⟨hk, by rwa [upd_ne _ _ hk] at h⟩

theorem inv_step (hk : KeysDecide jobs) {l : Bytes} (hl : OneLocal jobs l) {σ : Sys} (I : Inv jobs l σ) (i : Nat) :
    Inv jobs l (step jobs σ i) := by
  have hs := step_rel jobs σ i
  generalize step jobs σ i = σ' at hs
  have hloc : ∀ {k loc ch}, jobs k = .create loc ch → loc = l := by
    intro k loc ch h
    rcases hl k with ⟨c, h'⟩ | ⟨p, h'⟩ <;> rw [h] at h' <;> cases h'
    rfl
  cases hs with
  | stay => exact I
  | nothing hi σ' h1 h2 h3 h4 h5 h6 h7 h8 =>
    have hp : ∀ {k todo e}, σ'.pc k = .busy todo e → σ.pc k = .busy todo e := by
      intro k todo e h
      rw [h3] at h
      rcases pc_upd h with ⟨_, h⟩ | ⟨_, h⟩
      · cases h
      · exact h
    constructor
    · rw [h1]; exact I.peer
    · rw [h2]; exact I.ids
    · intro k ch todo e hj hb; exact I.shapeC k ch todo e hj (hp hb)
    · intro k p todo e hj hb; exact I.shapeR k p todo e hj (hp hb)
    · intro k ch todo hj hb; rw [h4, h1]; exact I.lockE k ch todo hj (hp hb)
    · intro k j ch ch' todo todo' hj hj' hb hb' h
      exact I.lockU k j ch ch' todo todo' hj hj' (hp hb) (hp hb') h
    · intro k p todo e hj hb
      rw [h1]
      have := I.wr k p todo e hj (hp hb)
      exact ⟨h8 _ this.1, this.2⟩
    · intro k j p todo e todo' e' hj hj' hb hb'
      exact I.wrU k j p todo e todo' e' hj hj' (hp hb) (hp hb')
    · intro q ch hq id hid
      rw [h1] at hq
      rw [h2]
      rcases I.pend q ch hq id hid with h | ⟨k, c, todo, e, hb, hm⟩
      · exact .inl h
      · refine .inr ⟨k, c, todo, e, ?_, hm⟩
        rw [h3, upd_ne]
        · exact hb
        · intro h; rw [h, hi] at hb; cases hb
  | vacant loc ch hi hj hlk hw hg σ' h1 h2 h3 h4 h5 h6 =>
    obtain rfl := hloc hj
    have hp : ∀ {k todo e}, σ'.pc k = .busy todo e →
        (k = i ∧ todo = [.ins ch.ord ch, .ins ch.prio ch] ∧ e = false) ∨ (k ≠ i ∧ σ.pc k = .busy todo e) := by
      intro k todo e h
      rw [h3] at h
      rcases pc_upd h with ⟨hk, h⟩ | h
      · cases h; exact .inl ⟨hk, rfl, rfl⟩
      · exact .inr h
    have hkeep : ∀ {k todo e}, σ.pc k = .busy todo e → σ'.pc k = .busy todo e := by
      intro k todo e h
      rw [h3, upd_ne]
      · exact h
      · intro h'; rw [h', hi] at h; cases h
    constructor
    · intro q c hq
      rw [h1, AMap.get_put] at hq
      by_cases hqq : q = ch.peer
      · rw [if_pos hqq] at hq; cases hq; exact ⟨hqq.symm, i, hj⟩
      · rw [if_neg hqq] at hq; exact I.peer q c hq
    · rw [h2]; exact I.ids
    · intro k c todo e hk' hb a ha
      rcases hp hb with ⟨rfl, rfl, rfl⟩ | ⟨_, hb⟩
      · rw [hj] at hk'; cases hk'
        simp only [List.mem_cons, List.not_mem_nil, or_false] at ha
        rcases ha with h | h
        · exact .inl h
        · exact .inr (.inl h)
      · exact I.shapeC k c todo e hk' hb a ha
    · intro k p todo e hk' hb
      rcases hp hb with ⟨rfl, rfl, rfl⟩ | ⟨_, hb⟩
      · rw [hj] at hk'; cases hk'
      · exact I.shapeR k p todo e hk' hb
    · intro k c todo hk' hb
      rcases hp hb with ⟨_, _, h⟩ | ⟨_, hb⟩
      · cases h
      · have := I.lockE k c todo hk' hb
        have hne : c.peer ≠ ch.peer := by intro h; rw [h, hlk] at this; cases this.1
        rw [h4, h1, AMap.get_put_ne _ _ hne]
        exact this
    · intro k j c c' todo todo' hk' hj' hb hb' h
      rcases hp hb with ⟨_, _, h⟩ | ⟨_, hb⟩
      · cases h
      rcases hp hb' with ⟨_, _, h⟩ | ⟨_, hb'⟩
      · cases h
      exact I.lockU k j c c' todo todo' hk' hj' hb hb' h
    · intro k p todo e hk' hb
      rcases hp hb with ⟨rfl, _, _⟩ | ⟨_, hb⟩
      · rw [hj] at hk'; cases hk'
      have := I.wr k p todo e hk' hb
      have hne : p ≠ ch.peer := by intro h; rw [h, hw] at this; cases this.1
      rw [h6, h1, AMap.get_put_ne _ _ hne]
      exact this
    · intro k j p todo e todo' e' hk' hj' hb hb'
      rcases hp hb with ⟨rfl, _, _⟩ | ⟨_, hb⟩
      · rw [hj] at hk'; cases hk'
      rcases hp hb' with ⟨rfl, _, _⟩ | ⟨_, hb'⟩
      · rw [hj] at hj'; cases hj'
      exact I.wrU k j p todo e todo' e' hk' hj' hb hb'
    · intro q c hq id hid
      rw [h1, AMap.get_put] at hq
      rw [h2]
      by_cases hqq : q = ch.peer
      · rw [if_pos hqq] at hq; cases hq
        refine .inr ⟨i, ch, [.ins ch.ord ch, .ins ch.prio ch], false, by rw [h3, upd_same], ?_⟩
        rcases hid with rfl | rfl <;> simp
      · rw [if_neg hqq] at hq
        rcases I.pend q c hq id hid with h | ⟨k, c', todo, e, hb, hm⟩
        · exact .inl h
        · exact .inr ⟨k, c', todo, e, hkeep hb, hm⟩
  | replace loc ch old hi hj hlk hw hg hv σ' h1 h2 h3 h4 h5 h6 =>
    obtain rfl := hloc hj
    have hp : ∀ {k todo e}, σ'.pc k = .busy todo e →
        (k = i ∧ todo = [.del old.ord, .del old.prio, .ins ch.ord ch, .ins ch.prio ch] ∧ e = true) ∨
        (k ≠ i ∧ σ.pc k = .busy todo e) := by
      intro k todo e h
      rw [h3] at h
      rcases pc_upd h with ⟨hk, h⟩ | h
      · cases h; exact .inl ⟨hk, rfl, rfl⟩
      · exact .inr h
    have hkeep : ∀ {k todo e}, σ.pc k = .busy todo e → σ'.pc k = .busy todo e := by
      intro k todo e h
      rw [h3, upd_ne]
      · exact h
      · intro h'; rw [h', hi] at h; cases h
    constructor
    · intro q c hq
      rw [h1, AMap.get_put] at hq
      by_cases hqq : q = ch.peer
      · rw [if_pos hqq] at hq; cases hq; exact ⟨hqq.symm, i, hj⟩
      · rw [if_neg hqq] at hq; exact I.peer q c hq
    · rw [h2]; exact I.ids
    · intro k c todo e hk' hb a ha
      rcases hp hb with ⟨rfl, rfl, rfl⟩ | ⟨_, hb⟩
      · rw [hj] at hk'; cases hk'
        obtain ⟨hpe, j, hjo⟩ := I.peer _ _ hg
        have hkey : old.key ≠ ch.key := by
          intro h; simp [stillValid, h] at hv
        simp only [List.mem_cons, List.not_mem_nil, or_false] at ha
        rcases ha with h | h | h | h
        · exact .inr (.inr ⟨rfl, old, j, hjo, hpe, hkey, .inl h⟩)
        · exact .inr (.inr ⟨rfl, old, j, hjo, hpe, hkey, .inr h⟩)
        · exact .inl h
        · exact .inr (.inl h)
      · exact I.shapeC k c todo e hk' hb a ha
    · intro k p todo e hk' hb
      rcases hp hb with ⟨rfl, rfl, rfl⟩ | ⟨_, hb⟩
      · rw [hj] at hk'; cases hk'
      · exact I.shapeR k p todo e hk' hb
    · intro k c todo hk' hb
      rcases hp hb with ⟨rfl, _, _⟩ | ⟨_, hb⟩
      · rw [hj] at hk'; cases hk'
        rw [h4, h1]
        simp
      · have := I.lockE k c todo hk' hb
        have hne : c.peer ≠ ch.peer := by intro h; rw [h, hlk] at this; cases this.1
        rw [h4, h1, AMap.get_put_ne _ _ hne, upd_ne _ _ hne]
        exact this
    · intro k j c c' todo todo' hk' hj' hb hb' h
      rcases hp hb with ⟨rfl, _, _⟩ | ⟨_, hb⟩
      · rcases hp hb' with ⟨rfl, _, _⟩ | ⟨_, hb'⟩
        · rfl
        · rw [hj] at hk'; cases hk'
          have := I.lockE j c' todo' hj' hb'
          rw [← h, hlk] at this
          cases this.1
      · rcases hp hb' with ⟨rfl, _, _⟩ | ⟨_, hb'⟩
        · rw [hj] at hj'; cases hj'
          have := I.lockE k c todo hk' hb
          rw [h, hlk] at this
          cases this.1
        · exact I.lockU k j c c' todo todo' hk' hj' hb hb' h
    · intro k p todo e hk' hb
      rcases hp hb with ⟨rfl, _, _⟩ | ⟨_, hb⟩
      · rw [hj] at hk'; cases hk'
      have := I.wr k p todo e hk' hb
      have hne : p ≠ ch.peer := by intro h; rw [h, hw] at this; cases this.1
      rw [h6, h1, AMap.get_put_ne _ _ hne]
      exact this
    · intro k j p todo e todo' e' hk' hj' hb hb'
      rcases hp hb with ⟨rfl, _, _⟩ | ⟨_, hb⟩
      · rw [hj] at hk'; cases hk'
      rcases hp hb' with ⟨rfl, _, _⟩ | ⟨_, hb'⟩
      · rw [hj] at hj'; cases hj'
      exact I.wrU k j p todo e todo' e' hk' hj' hb hb'
    · intro q c hq id hid
      rw [h1, AMap.get_put] at hq
      rw [h2]
      by_cases hqq : q = ch.peer
      · rw [if_pos hqq] at hq; cases hq
        refine .inr ⟨i, ch, [.del old.ord, .del old.prio, .ins ch.ord ch, .ins ch.prio ch], true,
          by rw [h3, upd_same], ?_⟩
        rcases hid with rfl | rfl <;> simp
      · rw [if_neg hqq] at hq
        rcases I.pend q c hq id hid with h | ⟨k, c', todo, e, hb, hm⟩
        · exact .inl h
        · exact .inr ⟨k, c', todo, e, hkeep hb, hm⟩
  | drop old hi hj hlk hg hr σ' h1 h2 h3 h4 h5 h6 =>
    rcases hl i with ⟨c, h⟩ | ⟨p, hjr⟩
    · exact absurd h (hj l c)
    obtain ⟨hw, -⟩ := hr l p hjr
    rw [hjr] at hlk hg h1 h6
    simp only [Job.peer] at hlk hg h1
    simp only at h6
    have hp : ∀ {k todo e}, σ'.pc k = .busy todo e →
        (k = i ∧ todo = [.del old.ord, .del old.prio] ∧ e = false) ∨ (k ≠ i ∧ σ.pc k = .busy todo e) := by
      intro k todo e h
      rw [h3] at h
      rcases pc_upd h with ⟨hk, h⟩ | h
      · cases h; exact .inl ⟨hk, rfl, rfl⟩
      · exact .inr h
    have hkeep : ∀ {k todo e}, σ.pc k = .busy todo e → σ'.pc k = .busy todo e := by
      intro k todo e h
      rw [h3, upd_ne]
      · exact h
      · intro h'; rw [h', hi] at h; cases h
    have hget : ∀ {q c}, σ'.byPeer.get q = some c → σ.byPeer.get q = some c := by
      intro q c h
      rw [h1, AMap.get_erase] at h
      split at h
      · cases h
      · exact h
    constructor
    · intro q c hq; exact I.peer q c (hget hq)
    · rw [h2]; exact I.ids
    · intro k c todo e hk' hb a ha
      rcases hp hb with ⟨rfl, rfl, rfl⟩ | ⟨_, hb⟩
      · rw [hjr] at hk'; cases hk'
      · exact I.shapeC k c todo e hk' hb a ha
    · intro k p' todo e hk' hb
      rcases hp hb with ⟨rfl, rfl, rfl⟩ | ⟨_, hb⟩
      · rw [hjr] at hk'; cases hk'
        obtain ⟨hpe, j, hjo⟩ := I.peer _ _ hg
        refine ⟨rfl, fun a ha => ⟨old, j, hjo, hpe, ?_⟩⟩
        simpa using ha
      · exact I.shapeR k p' todo e hk' hb
    · intro k c todo hk' hb
      rcases hp hb with ⟨_, _, h⟩ | ⟨_, hb⟩
      · cases h
      · have := I.lockE k c todo hk' hb
        have hne : c.peer ≠ p := by intro h; rw [h, hlk] at this; cases this.1
        rw [h4, h1, AMap.get_erase, if_neg hne]
        exact this
    · intro k j c c' todo todo' hk' hj' hb hb' h
      rcases hp hb with ⟨_, _, h⟩ | ⟨_, hb⟩
      · cases h
      rcases hp hb' with ⟨_, _, h⟩ | ⟨_, hb'⟩
      · cases h
      exact I.lockU k j c c' todo todo' hk' hj' hb hb' h
    · intro k p' todo e hk' hb
      rw [h6, h1, AMap.get_erase]
      rcases hp hb with ⟨rfl, _, _⟩ | ⟨_, hb⟩
      · rw [hjr] at hk'; cases hk'
        simp
      · have := I.wr k p' todo e hk' hb
        have hne : p' ≠ p := by intro h; rw [h, hw] at this; cases this.1
        rw [if_neg hne, upd_ne _ _ (by simpa using hne)]
        exact this
    · intro k j p' todo e todo' e' hk' hj' hb hb'
      rcases hp hb with ⟨rfl, _, _⟩ | ⟨_, hb⟩
      · rcases hp hb' with ⟨rfl, _, _⟩ | ⟨_, hb'⟩
        · rfl
        · rw [hjr] at hk'; cases hk'
          have := I.wr j p todo' e' hj' hb'
          rw [hw] at this; cases this.1
      · rcases hp hb' with ⟨rfl, _, _⟩ | ⟨_, hb'⟩
        · rw [hjr] at hj'; cases hj'
          have := I.wr k p todo e hk' hb
          rw [hw] at this; cases this.1
        · exact I.wrU k j p' todo e todo' e' hk' hj' hb hb'
    · intro q c hq id hid
      rw [h2]
      rcases I.pend q c (hget hq) id hid with h | ⟨k, c', todo, e, hb, hm⟩
      · exact .inl h
      · exact .inr ⟨k, c', todo, e, hkeep hb, hm⟩
  | access a rest entry hi σ' h1 h2 h3 h4 h5 h6 =>
    have hp : ∀ {k todo e}, σ'.pc k = .busy todo e → ∃ t, σ.pc k = .busy t e ∧ todo ⊆ t := by
      intro k todo e h
      rw [h3] at h
      rcases pc_upd h with ⟨hk, h⟩ | ⟨_, h⟩
      · cases h; subst hk; exact ⟨_, hi, List.subset_cons_self ..⟩
      · exact ⟨_, h, List.Subset.refl _⟩
    constructor
    · rw [h1]; exact I.peer
    · intro id c hid
      rw [h2] at hid
      cases a with
      | ins id' c' =>
        simp only [act, AMap.get_put] at hid
        split at hid
        · rename_i h
          cases hid
          subst h
          rcases hl i with ⟨ch, hj⟩ | ⟨p, hj⟩
          · rcases I.shapeC i ch _ _ hj hi _ (List.mem_cons_self ..) with h | h | ⟨_, _, _, _, _, _, h | h⟩
            · cases h; exact ⟨.inl rfl, i, hj⟩
            · cases h; exact ⟨.inr rfl, i, hj⟩
            · cases h
            · cases h
          · obtain ⟨_, _, _, _, h | h⟩ := (I.shapeR i p _ _ hj hi).2 _ (List.mem_cons_self ..) <;> cases h
        · exact I.ids id c hid
      | del id' =>
        simp only [act, AMap.get_erase] at hid
        split at hid
        · cases hid
        · exact I.ids id c hid
    · intro k c todo e hk' hb b hb'
      obtain ⟨t, hb, hs⟩ := hp hb
      exact I.shapeC k c t e hk' hb b (hs hb')
    · intro k p todo e hk' hb
      obtain ⟨t, hb, hs⟩ := hp hb
      exact ⟨(I.shapeR k p t e hk' hb).1, fun b hb' => (I.shapeR k p t e hk' hb).2 b (hs hb')⟩
    · intro k c todo hk' hb
      obtain ⟨t, hb, hs⟩ := hp hb
      rw [h4, h1]; exact I.lockE k c t hk' hb
    · intro k j c c' todo todo' hk' hj' hb hb' h
      obtain ⟨t, hb, hs⟩ := hp hb
      obtain ⟨t', hb', hs'⟩ := hp hb'
      exact I.lockU k j c c' t t' hk' hj' hb hb' h
    · intro k p todo e hk' hb
      obtain ⟨t, hb, hs⟩ := hp hb
      rw [h6, h1]; exact I.wr k p t e hk' hb
    · intro k j p todo e todo' e' hk' hj' hb hb'
      obtain ⟨t, hb, hs⟩ := hp hb
      obtain ⟨t', hb', hs'⟩ := hp hb'
      exact I.wrU k j p t e t' e' hk' hj' hb hb'
    · intro q c hq id hid
      rw [h1] at hq
      rw [h2]
      rcases I.pend q c hq id hid with ⟨x, h⟩ | ⟨k, c', todo, e, hb, hm⟩
      · refine .inl ?_
        cases a with
        | ins id' c' =>
          simp only [act, AMap.get_put]
          split
          · exact ⟨_, rfl⟩
          · exact ⟨x, h⟩
        | del id' =>
          simp only [act, AMap.get_erase]
          split
          · rename_i heq
            exfalso
            obtain ⟨hpe, j, hjc⟩ := I.peer _ _ hq
            rcases hl i with ⟨ch, hj⟩ | ⟨p, hj⟩
            · rcases I.shapeC i ch _ _ hj hi _ (List.mem_cons_self ..) with h' | h' | ⟨he, old, jo, hjo, hpo, hko, ho⟩
              · cases h'
              · cases h'
              · have hido : id = old.ord ∨ id = old.prio := by
                  rcases ho with ho | ho <;> cases ho
                  · exact .inl heq
                  · exact .inr heq
                have hsame := hk.other j jo l l c old id hjc hjo hid hido
                subst he
                have hle := (I.lockE i ch _ hj hi).2
                rw [← hpo, ← hsame.2.1, hpe, hq] at hle
                cases hle
                exact hko hsame.2.2.1.symm
            · obtain ⟨old, jo, hjo, hpo, ho⟩ := (I.shapeR i p _ _ hj hi).2 _ (List.mem_cons_self ..)
              have hido : id = old.ord ∨ id = old.prio := by
                rcases ho with ho | ho <;> cases ho
                · exact .inl heq
                · exact .inr heq
              have hsame := hk.other j jo l l c old id hjc hjo hid hido
              have := (I.wr i p _ _ hj hi).2
              rw [← hpo, ← hsame.2.1, hpe, hq] at this
              cases this
          · exact ⟨x, h⟩
      · by_cases hki : k = i
        · subst hki
          rw [hi] at hb; cases hb
          rcases List.mem_cons.mp hm with h | h
          · subst h
            exact .inl ⟨c', by simp [act]⟩
          · exact .inr ⟨k, c', rest, entry, by rw [h3, upd_same], h⟩
        · exact .inr ⟨k, c', todo, e, by rw [h3, upd_ne _ _ hki]; exact hb, hm⟩
  | finish entry hi σ' h1 h2 h3 h4 h5 h6 =>
    have hp : ∀ {k todo e}, σ'.pc k = .busy todo e → k ≠ i ∧ σ.pc k = .busy todo e := by
      intro k todo e h
      rw [h3] at h
      rcases pc_upd h with ⟨_, h⟩ | h
      · cases h
      · exact h
    constructor
    · rw [h1]; exact I.peer
    · rw [h2]; exact I.ids
    · intro k ch todo e hj hb; exact I.shapeC k ch todo e hj (hp hb).2
    · intro k p todo e hj hb; exact I.shapeR k p todo e hj (hp hb).2
    · intro k ch todo hj hb
      rw [h4, h1]
      have := I.lockE k ch todo hj (hp hb).2
      refine ⟨?_, this.2⟩
      cases entry with
      | false => exact this.1
      | true =>
        rcases hl i with ⟨c, hji⟩ | ⟨p, hji⟩
        · rw [if_pos rfl, hji, upd_ne]
          · exact this.1
          · intro h
            exact (hp hb).1 (I.lockU k i ch c _ _ hj hji (hp hb).2 hi h)
        · have := (I.shapeR i p _ _ hji hi).1
          cases this
    · intro k j ch ch' todo todo' hj hj' hb hb' h
      exact I.lockU k j ch ch' todo todo' hj hj' (hp hb).2 (hp hb').2 h
    · intro k p todo e hj hb
      rw [h1]
      have := I.wr k p todo e hj (hp hb).2
      refine ⟨?_, this.2⟩
      rw [h6]
      rcases hl i with ⟨c, hji⟩ | ⟨p', hji⟩
      · rw [hji]; exact this.1
      · rw [hji]
        simp only
        rw [upd_ne]
        · exact this.1
        · intro h
          cases h
          exact (hp hb).1 (I.wrU k i p _ _ _ _ hj hji (hp hb).2 hi)
    · intro k j p todo e todo' e' hj hj' hb hb'
      exact I.wrU k j p todo e todo' e' hj hj' (hp hb).2 (hp hb').2
    · intro q ch hq id hid
      rw [h1] at hq
      rw [h2]
      rcases I.pend q ch hq id hid with h | ⟨k, c, todo, e, hb, hm⟩
      · exact .inl h
      · refine .inr ⟨k, c, todo, e, ?_, hm⟩
        rw [h3, upd_ne]
        · exact hb
        · intro h; rw [h, hi] at hb; cases hb; cases hm

theorem inv_run (hk : KeysDecide jobs) {l : Bytes} (hl : OneLocal jobs l) (sched : List Nat) :
    ∀ {σ : Sys}, Inv jobs l σ → Inv jobs l (run jobs σ sched) := by
  induction sched with
  | nil => intro σ h; exact h
  | cons i s ih => intro σ h; exact ih (inv_step hk hl h i)

/-- **C100**, the part that holds: with one local id and no removals, every channel used for sending is listed for
receiving, whatever channels are made, replaced and reset at the same time. -/
theorem C100_usable_partial (hk : KeysDecide jobs) (l : Bytes) (hl : OneLocal jobs l) (sched : List Nat)
    (hq : Quiet (run jobs init sched)) : Usable (run jobs init sched) := by
  have I : Inv jobs l (run jobs init sched) := inv_run hk hl sched (inv_init l)
  intro p ch hp
  obtain ⟨hpe, j, hj⟩ := I.peer p ch hp
  have key : ∀ id, (id = ch.ord ∨ id = ch.prio) →
      ∃ a, (run jobs init sched).byId.get id = some a ∧ a.peer = p ∧ a.key = ch.key := by
    intro id hid
    rcases I.pend p ch hp id hid with ⟨a, ha⟩ | ⟨k, c, todo, e, hb, _⟩
    · obtain ⟨hida, ja, hja⟩ := I.ids id a ha
      have := hk.other ja j l l a ch id hja hj hida hid
      exact ⟨a, ha, by rw [this.2.1, hpe], this.2.2.1⟩
    · exact absurd hb (hq k todo e)
  exact ⟨key _ (.inl rfl), key _ (.inr rfl)⟩

/-- No job starts on a peer while another thread still has to list the ids of the first channel to that peer. -/
def Calm (jobs : Nat → Job) : Sys → List Nat → Prop
  | _, [] => True
  | σ, i :: sched =>
    (σ.pc i = .idle → ∀ k todo id c, σ.pc k = .busy todo false → Act.ins id c ∈ todo → c.peer ≠ (jobs i).peer) ∧
    Calm jobs (step jobs σ i) sched

/-- The invariant behind `C100_no_stale_partial`. -/
structure Inv2 (jobs : Nat → Job) (σ : Sys) : Prop where
  peer : ∀ q ch, σ.byPeer.get q = some ch → ch.peer = q ∧ ∃ j l, jobs j = .create l ch
  ids : ∀ id ch, σ.byId.get id = some ch → (id = ch.ord ∨ id = ch.prio) ∧ ∃ j l, jobs j = .create l ch
  ins : ∀ i todo e id c, σ.pc i = .busy todo e → Act.ins id c ∈ todo →
    (∃ l, jobs i = .create l c) ∧ (id = c.ord ∨ id = c.prio) ∧ σ.byPeer.get c.peer = some c
  lockE : ∀ i todo, σ.pc i = .busy todo true → σ.locked (jobs i).peer = true
  lockU : ∀ i j todo todo', σ.pc i = .busy todo true → σ.pc j = .busy todo' true → (jobs i).peer = (jobs j).peer → i = j
  stale : ∀ id c, σ.byId.get id = some c →
    (∃ c', σ.byPeer.get c.peer = some c' ∧ (id = c'.ord ∨ id = c'.prio)) ∨
    ∃ k todo e, σ.pc k = .busy todo e ∧ Act.del id ∈ todo

theorem inv2_init : Inv2 jobs init := by
  constructor <;> intros <;> simp_all [init, AMap.get]

theorem inv2_step {σ : Sys} (I : Inv2 jobs σ) (i : Nat)
    (hc : σ.pc i = .idle → ∀ k todo id c, σ.pc k = .busy todo false → Act.ins id c ∈ todo → c.peer ≠ (jobs i).peer) :
    Inv2 jobs (step jobs σ i) := by
  have hs := step_rel jobs σ i
  generalize step jobs σ i = σ' at hs
  /- nobody has to list ids of a channel to a peer on which a job can start -/
  have hfree : σ.pc i = .idle → σ.locked (jobs i).peer = false → ∀ {k todo e id c}, σ.pc k = .busy todo e →
      Act.ins id c ∈ todo → c.peer ≠ (jobs i).peer := by
    intro hi hl k todo e id c hb hm h
    cases e with
    | false => exact hc hi k todo id c hb hm h
    | true =>
      have := I.lockE k todo hb
      obtain ⟨⟨l, hj⟩, _, _⟩ := I.ins k todo true id c hb hm
      rw [hj] at this
      simp only [Job.peer] at this
      rw [h, hl] at this
      cases this
  cases hs with
  | stay => exact I
  | nothing hi σ' h1 h2 h3 h4 h5 h6 h7 h8 =>
    have hp : ∀ {k todo e}, σ'.pc k = .busy todo e → σ.pc k = .busy todo e := by
      intro k todo e h
      rw [h3] at h
      rcases pc_upd h with ⟨_, h⟩ | ⟨_, h⟩
      · cases h
      · exact h
    constructor
    · rw [h1]; exact I.peer
    · rw [h2]; exact I.ids
    · intro k todo e id c hb hm; rw [h1]; exact I.ins k todo e id c (hp hb) hm
    · intro k todo hb; rw [h4]; exact I.lockE k todo (hp hb)
    · intro k j todo todo' hb hb' h; exact I.lockU k j todo todo' (hp hb) (hp hb') h
    · intro id c hid
      rw [h2] at hid
      rw [h1]
      rcases I.stale id c hid with h | ⟨k, todo, e, hb, hm⟩
      · exact .inl h
      · refine .inr ⟨k, todo, e, ?_, hm⟩
        rw [h3, upd_ne]
        · exact hb
        · intro h; rw [h, hi] at hb; cases hb
  | vacant loc ch hi hj hlk hw hg σ' h1 h2 h3 h4 h5 h6 =>
    have hf := @hfree hi (by rw [hj]; exact hlk)
    rw [hj] at hf
    simp only [Job.peer] at hf
    have hp : ∀ {k todo e}, σ'.pc k = .busy todo e →
        (k = i ∧ todo = [.ins ch.ord ch, .ins ch.prio ch] ∧ e = false) ∨ (k ≠ i ∧ σ.pc k = .busy todo e) := by
      intro k todo e h
      rw [h3] at h
      rcases pc_upd h with ⟨hk, h⟩ | h
      · cases h; exact .inl ⟨hk, rfl, rfl⟩
      · exact .inr h
    have hkeep : ∀ {k todo e}, σ.pc k = .busy todo e → σ'.pc k = .busy todo e := by
      intro k todo e h
      rw [h3, upd_ne]
      · exact h
      · intro h'; rw [h', hi] at h; cases h
    constructor
    · intro q c hq
      rw [h1, AMap.get_put] at hq
      by_cases hqq : q = ch.peer
      · rw [if_pos hqq] at hq; cases hq; exact ⟨hqq.symm, i, loc, hj⟩
      · rw [if_neg hqq] at hq; exact I.peer q c hq
    · rw [h2]; exact I.ids
    · intro k todo e id c hb hm
      rcases hp hb with ⟨rfl, rfl, rfl⟩ | ⟨_, hb⟩
      · simp only [List.mem_cons, List.not_mem_nil, or_false] at hm
        rcases hm with h | h <;> cases h
        · exact ⟨⟨loc, hj⟩, .inl rfl, by rw [h1]; simp⟩
        · exact ⟨⟨loc, hj⟩, .inr rfl, by rw [h1]; simp⟩
      · have := I.ins k todo e id c hb hm
        rw [h1, AMap.get_put_ne _ _ (hf hb hm)]
        exact this
    · intro k todo hb
      rcases hp hb with ⟨_, _, h⟩ | ⟨_, hb⟩
      · cases h
      · rw [h4]; exact I.lockE k todo hb
    · intro k j todo todo' hb hb' h
      rcases hp hb with ⟨_, _, h⟩ | ⟨_, hb⟩
      · cases h
      rcases hp hb' with ⟨_, _, h⟩ | ⟨_, hb'⟩
      · cases h
      exact I.lockU k j todo todo' hb hb' h
    · intro id c hid
      rw [h2] at hid
      rcases I.stale id c hid with ⟨c', h, hi'⟩ | ⟨k, todo, e, hb, hm⟩
      · refine .inl ⟨c', ?_, hi'⟩
        rw [h1, AMap.get_put_ne]
        · exact h
        · intro hh; rw [hh, hg] at h; cases h
      · exact .inr ⟨k, todo, e, hkeep hb, hm⟩
  | replace loc ch old hi hj hlk hw hg hv σ' h1 h2 h3 h4 h5 h6 =>
    have hf := @hfree hi (by rw [hj]; exact hlk)
    rw [hj] at hf
    simp only [Job.peer] at hf
    have hp : ∀ {k todo e}, σ'.pc k = .busy todo e →
        (k = i ∧ todo = [.del old.ord, .del old.prio, .ins ch.ord ch, .ins ch.prio ch] ∧ e = true) ∨
        (k ≠ i ∧ σ.pc k = .busy todo e) := by
      intro k todo e h
      rw [h3] at h
      rcases pc_upd h with ⟨hk, h⟩ | h
      · cases h; exact .inl ⟨hk, rfl, rfl⟩
      · exact .inr h
    have hkeep : ∀ {k todo e}, σ.pc k = .busy todo e → σ'.pc k = .busy todo e := by
      intro k todo e h
      rw [h3, upd_ne]
      · exact h
      · intro h'; rw [h', hi] at h; cases h
    have hnl : ∀ {k todo}, σ.pc k = .busy todo true → (jobs k).peer ≠ ch.peer := by
      intro k todo hb h
      have := I.lockE k todo hb
      rw [h, hlk] at this
      cases this
    constructor
    · intro q c hq
      rw [h1, AMap.get_put] at hq
      by_cases hqq : q = ch.peer
      · rw [if_pos hqq] at hq; cases hq; exact ⟨hqq.symm, i, loc, hj⟩
      · rw [if_neg hqq] at hq; exact I.peer q c hq
    · rw [h2]; exact I.ids
    · intro k todo e id c hb hm
      rcases hp hb with ⟨rfl, rfl, rfl⟩ | ⟨_, hb⟩
      · simp only [List.mem_cons, List.not_mem_nil, or_false] at hm
        rcases hm with h | h | h | h <;> cases h
        · exact ⟨⟨loc, hj⟩, .inl rfl, by rw [h1]; simp⟩
        · exact ⟨⟨loc, hj⟩, .inr rfl, by rw [h1]; simp⟩
      · have := I.ins k todo e id c hb hm
        rw [h1, AMap.get_put_ne _ _ (hf hb hm)]
        exact this
    · intro k todo hb
      rcases hp hb with ⟨rfl, _, _⟩ | ⟨_, hb⟩
      · rw [h4, hj]; simp [Job.peer]
      · rw [h4, upd_ne _ _ (hnl hb)]; exact I.lockE k todo hb
    · intro k j todo todo' hb hb' h
      rcases hp hb with ⟨rfl, _, _⟩ | ⟨_, hb⟩
      · rcases hp hb' with ⟨rfl, _, _⟩ | ⟨_, hb'⟩
        · rfl
        · rw [hj] at h; exact absurd h.symm (hnl hb')
      · rcases hp hb' with ⟨rfl, _, _⟩ | ⟨_, hb'⟩
        · rw [hj] at h; exact absurd h (hnl hb)
        · exact I.lockU k j todo todo' hb hb' h
    · intro id c hid
      rw [h2] at hid
      rcases I.stale id c hid with ⟨c', h, hi'⟩ | ⟨k, todo, e, hb, hm⟩
      · by_cases hcp : c.peer = ch.peer
        · rw [hcp, hg] at h
          cases h
          refine .inr ⟨i, [.del old.ord, .del old.prio, .ins ch.ord ch, .ins ch.prio ch], true, by rw [h3, upd_same], ?_⟩
          rcases hi' with rfl | rfl <;> simp
        · refine .inl ⟨c', ?_, hi'⟩
          rw [h1, AMap.get_put_ne _ _ hcp]
          exact h
      · exact .inr ⟨k, todo, e, hkeep hb, hm⟩
  | drop old hi hj hlk hg hr σ' h1 h2 h3 h4 h5 h6 =>
    have hf := @hfree hi hlk
    have hp : ∀ {k todo e}, σ'.pc k = .busy todo e →
        (k = i ∧ todo = [.del old.ord, .del old.prio] ∧ e = false) ∨ (k ≠ i ∧ σ.pc k = .busy todo e) := by
      intro k todo e h
      rw [h3] at h
      rcases pc_upd h with ⟨hk, h⟩ | h
      · cases h; exact .inl ⟨hk, rfl, rfl⟩
      · exact .inr h
    have hkeep : ∀ {k todo e}, σ.pc k = .busy todo e → σ'.pc k = .busy todo e := by
      intro k todo e h
      rw [h3, upd_ne]
      · exact h
      · intro h'; rw [h', hi] at h; cases h
    constructor
    · intro q c hq
      rw [h1, AMap.get_erase] at hq
      split at hq
      · cases hq
      · exact I.peer q c hq
    · rw [h2]; exact I.ids
    · intro k todo e id c hb hm
      rcases hp hb with ⟨rfl, rfl, rfl⟩ | ⟨_, hb⟩
      · simp at hm
      · have := I.ins k todo e id c hb hm
        rw [h1, AMap.get_erase, if_neg (hf hb hm)]
        exact this
    · intro k todo hb
      rcases hp hb with ⟨_, _, h⟩ | ⟨_, hb⟩
      · cases h
      · rw [h4]; exact I.lockE k todo hb
    · intro k j todo todo' hb hb' h
      rcases hp hb with ⟨_, _, h⟩ | ⟨_, hb⟩
      · cases h
      rcases hp hb' with ⟨_, _, h⟩ | ⟨_, hb'⟩
      · cases h
      exact I.lockU k j todo todo' hb hb' h
    · intro id c hid
      rw [h2] at hid
      rcases I.stale id c hid with ⟨c', h, hi'⟩ | ⟨k, todo, e, hb, hm⟩
      · by_cases hcp : c.peer = (jobs i).peer
        · rw [hcp, hg] at h
          cases h
          refine .inr ⟨i, [.del old.ord, .del old.prio], false, by rw [h3, upd_same], ?_⟩
          rcases hi' with rfl | rfl <;> simp
        · refine .inl ⟨c', ?_, hi'⟩
          rw [h1, AMap.get_erase, if_neg hcp]
          exact h
      · exact .inr ⟨k, todo, e, hkeep hb, hm⟩
  | access a rest entry hi σ' h1 h2 h3 h4 h5 h6 =>
    have hp : ∀ {k todo e}, σ'.pc k = .busy todo e → ∃ t, σ.pc k = .busy t e ∧ todo ⊆ t := by
      intro k todo e h
      rw [h3] at h
      rcases pc_upd h with ⟨hk, h⟩ | ⟨_, h⟩
      · cases h; subst hk; exact ⟨_, hi, List.subset_cons_self ..⟩
      · exact ⟨_, h, List.Subset.refl _⟩
    constructor
    · rw [h1]; exact I.peer
    · intro id c hid
      rw [h2] at hid
      cases a with
      | ins id' c' =>
        simp only [act, AMap.get_put] at hid
        split at hid
        · rename_i h
          cases hid
          subst h
          obtain ⟨⟨l, hj⟩, hid', _⟩ := I.ins i _ _ _ _ hi (List.mem_cons_self ..)
          exact ⟨hid', i, l, hj⟩
        · exact I.ids id c hid
      | del id' =>
        simp only [act, AMap.get_erase] at hid
        split at hid
        · cases hid
        · exact I.ids id c hid
    · intro k todo e id c hb hm
      obtain ⟨t, hb, hs⟩ := hp hb
      rw [h1]; exact I.ins k t e id c hb (hs hm)
    · intro k todo hb
      obtain ⟨t, hb, hs⟩ := hp hb
      rw [h4]; exact I.lockE k t hb
    · intro k j todo todo' hb hb' h
      obtain ⟨t, hb, hs⟩ := hp hb
      obtain ⟨t', hb', hs'⟩ := hp hb'
      exact I.lockU k j t t' hb hb' h
    · intro id c hid
      rw [h1]
      have hrest : ∀ c, σ.byId.get id = some c → (∀ id', a = .del id' → id ≠ id') →
          (∃ c', σ.byPeer.get c.peer = some c' ∧ (id = c'.ord ∨ id = c'.prio)) ∨
          ∃ k todo e, σ'.pc k = .busy todo e ∧ Act.del id ∈ todo := by
        intro c hid ha
        rcases I.stale id c hid with h | ⟨k, todo, e, hb, hm⟩
        · exact .inl h
        · by_cases hki : k = i
          · subst hki
            rw [hi] at hb; cases hb
            rcases List.mem_cons.mp hm with h | h
            · exact absurd rfl (ha id h.symm)
            · exact .inr ⟨k, rest, entry, by rw [h3, upd_same], h⟩
          · exact .inr ⟨k, todo, e, by rw [h3, upd_ne _ _ hki]; exact hb, hm⟩
      rw [h2] at hid
      cases a with
      | ins id' c' =>
        simp only [act, AMap.get_put] at hid
        split at hid
        · rename_i h
          cases hid
          subst h
          obtain ⟨_, hid', hb⟩ := I.ins i _ _ _ _ hi (List.mem_cons_self ..)
          exact .inl ⟨c, hb, hid'⟩
        · exact hrest c hid (by intro id' h; cases h)
      | del id' =>
        simp only [act, AMap.get_erase] at hid
        split at hid
        · cases hid
        · rename_i hne
          exact hrest c hid (by intro x h; cases h; exact hne)
  | finish entry hi σ' h1 h2 h3 h4 h5 h6 =>
    have hp : ∀ {k todo e}, σ'.pc k = .busy todo e → k ≠ i ∧ σ.pc k = .busy todo e := by
      intro k todo e h
      rw [h3] at h
      rcases pc_upd h with ⟨_, h⟩ | h
      · cases h
      · exact h
    constructor
    · rw [h1]; exact I.peer
    · rw [h2]; exact I.ids
    · intro k todo e id c hb hm; rw [h1]; exact I.ins k todo e id c (hp hb).2 hm
    · intro k todo hb
      have := I.lockE k todo (hp hb).2
      rw [h4]
      cases entry with
      | false => exact this
      | true =>
        rw [if_pos rfl, upd_ne]
        · exact this
        · intro h; exact (hp hb).1 (I.lockU k i _ _ (hp hb).2 hi h)
    · intro k j todo todo' hb hb' h; exact I.lockU k j todo todo' (hp hb).2 (hp hb').2 h
    · intro id c hid
      rw [h2] at hid
      rw [h1]
      rcases I.stale id c hid with h | ⟨k, todo, e, hb, hm⟩
      · exact .inl h
      · refine .inr ⟨k, todo, e, ?_, hm⟩
        rw [h3, upd_ne]
        · exact hb
        · intro h; rw [h, hi] at hb; cases hb; cases hm

theorem inv2_run (sched : List Nat) :
    ∀ {σ : Sys}, Inv2 jobs σ → Calm jobs σ sched → Inv2 jobs (run jobs σ sched) := by
  induction sched with
  | nil => intro σ h _; exact h
  | cons i s ih => intro σ h hc; exact ih (inv2_step h i hc.1) hc.2

/-- **C100**, the part that holds: ids of channels that are gone are not left behind, provided that no job starts on
a peer while another thread still has to list the ids of the first channel to it. Any local ids, any jobs. -/
theorem C100_no_stale_partial (sched : List Nat) (hc : Calm jobs init sched)
    (hq : Quiet (run jobs init sched)) : NoStale (run jobs init sched) := by
  have I : Inv2 jobs (run jobs init sched) := inv2_run sched inv2_init hc
  intro id c hid
  rcases I.stale id c hid with h | ⟨k, todo, e, hb, _⟩
  · exact h
  · exact absurd hb (hq k todo e)

/-- A thread that is never scheduled stays where it is. -/
theorem step_pc_other {σ : Sys} {i k : Nat} (h : k ≠ i) : (step jobs σ i).pc k = σ.pc k := by
  have hs := step_rel jobs σ i
  generalize step jobs σ i = σ' at hs
  cases hs <;> first | rfl | (rw [‹σ'.pc = _›, upd_ne _ _ h])

theorem run_pc_other (sched : List Nat) {k : Nat} (h : k ∉ sched) : ∀ {σ : Sys}, (run jobs σ sched).pc k = σ.pc k := by
  induction sched with
  | nil => intro σ; rfl
  | cons i s ih =>
    intro σ
    rw [List.mem_cons, not_or] at h
    show (run jobs (step jobs σ i) s).pc k = _
    rw [ih h.2, step_pc_other h.1]

/-- When the threads that were scheduled are done, nothing is going on. -/
theorem quiet_of (sched : List Nat) (h : ∀ k ∈ sched, (run jobs init sched).pc k = .done) :
    Quiet (run jobs init sched) := by
  intro k todo e hb
  by_cases hm : k ∈ sched
  · rw [h k hm] at hb; cases hb
  · rw [run_pc_other sched hm] at hb; cases hb

end

/-! ### Concrete runs -/

/-- A channel to peer 1 with the key `k`. -/
def chanOf (k : UInt8) (date : Nat) : Chan := ⟨[1], [k], date, [k, 0], [k, 1]⟩

theorem chanOf_keysDecide {jobs : Nat → Job}
    (h : ∀ i loc ch, jobs i = .create loc ch → loc = [7] ∧ ∃ k d, ch = chanOf k d) : KeysDecide jobs := by
  constructor
  · intro i loc ch hi
    obtain ⟨_, k, d, rfl⟩ := h i loc ch hi
    simp [chanOf]
  · intro i j loc loc' ch ch' id hi hj h1 h2
    obtain ⟨rfl, k, d, rfl⟩ := h i loc ch hi
    obtain ⟨rfl, k', d', rfl⟩ := h j loc' ch' hj
    have : k = k' := by
      simp only [chanOf] at h1 h2
      rcases h1 with rfl | rfl <;> rcases h2 with h2 | h2 <;> simpa using h2
    subst this
    exact ⟨rfl, rfl, rfl, rfl, rfl⟩

/-- Two channel requests with different keys. -/
def twoRequests : Nat → Job
  | 0 => .create [7] (chanOf 2 1)
  | 1 => .create [7] (chanOf 3 2)
  | _ => .reset [7] [9]

theorem twoRequests_keysDecide : KeysDecide twoRequests := by
  apply chanOf_keysDecide
  intro i loc ch h
  match i with
  | 0 => cases h; exact ⟨rfl, 2, 1, rfl⟩
  | 1 => cases h; exact ⟨rfl, 3, 2, rfl⟩
  | i + 2 => cases h

/-- **C100 is false as stated**: the first request has put its channel but not yet listed the ids when the second one
replaces it; the ids of the channel that is gone stay listed for ever. -/
theorem C100_full_false : ¬ C100_full := by
  intro h
  have hq : Quiet (run twoRequests init [0, 1, 1, 1, 1, 1, 1, 0, 0, 0]) := quiet_of _ (by decide)
  obtain ⟨c, hc, hid⟩ := (h _ twoRequests_keysDecide _ hq).2 [2, 0] (chanOf 2 1) (by decide)
  have : (run twoRequests init [0, 1, 1, 1, 1, 1, 1, 0, 0, 0]).byPeer.get [1] = some (chanOf 3 2) := by decide
  rw [show (chanOf 2 1).peer = [1] from rfl, this] at hc
  cases hc
  revert hid
  decide

/-- A channel, a removal of the peer, and a second request with the same key. -/
def removal : Nat → Job
  | 0 => .create [7] (chanOf 2 1)
  | 1 => .remove [1]
  | 2 => .create [7] (chanOf 2 2)
  | _ => .reset [7] [9]

/-- Removals have to be excluded in `C100_usable_partial`: the ids of a channel made in the middle of `remove_peer`
are taken away by it, and the channel stays. -/
theorem C100_remove_breaks : KeysDecide removal ∧ ∃ sched, Quiet (run removal init sched) ∧
    (run removal init sched).byPeer.get [1] = some (chanOf 2 2) ∧ (run removal init sched).byId = [] := by
  refine ⟨?_, [0, 0, 0, 0, 1, 2, 2, 2, 2, 1, 1, 1], quiet_of _ (by decide), by decide, by decide⟩
  apply chanOf_keysDecide
  intro i loc ch h
  match i with
  | 0 => cases h; exact ⟨rfl, 2, 1, rfl⟩
  | 1 => cases h
  | 2 => cases h; exact ⟨rfl, 2, 2, rfl⟩
  | i + 3 => cases h

/-- The same with a reset of the peer for another local id. -/
def otherReset : Nat → Job
  | 0 => .create [7] (chanOf 2 1)
  | 1 => .reset [8] [1]
  | 2 => .create [7] (chanOf 2 2)
  | _ => .reset [7] [9]

/-- Several local ids have to be excluded as well: the reset for another local id does not hold the lock that would
keep the channel from being made again. -/
theorem C100_reset_breaks : KeysDecide otherReset ∧ ∃ sched, Quiet (run otherReset init sched) ∧
    (run otherReset init sched).byPeer.get [1] = some (chanOf 2 2) ∧ (run otherReset init sched).byId = [] := by
  refine ⟨?_, [0, 0, 0, 0, 1, 2, 2, 2, 2, 1, 1, 1], quiet_of _ (by decide), by decide, by decide⟩
  apply chanOf_keysDecide
  intro i loc ch h
  match i with
  | 0 => cases h; exact ⟨rfl, 2, 1, rfl⟩
  | 1 => cases h
  | 2 => cases h; exact ⟨rfl, 2, 2, rfl⟩
  | i + 3 => cases h

/-- A reset for the local id of the channel waits for nothing to be lost. -/
def ownReset : Nat → Job
  | 0 => .create [7] (chanOf 2 1)
  | 1 => .reset [7] [1]
  | 2 => .create [7] (chanOf 2 2)
  | _ => .reset [7] [9]

/-- `C100_usable_partial` applies to runs with interleaving: here thread 2 tries to make the channel again in the
middle of the reset and has to wait; in the end the channel is there and usable. -/
example : KeysDecide ownReset ∧ OneLocal ownReset [7] ∧
    Quiet (run ownReset init [0, 0, 0, 0, 1, 2, 1, 2, 1, 1, 2, 2, 2, 2]) ∧
    (run ownReset init [0, 0, 0, 0, 1, 2, 1, 2, 1, 1, 2, 2, 2, 2]).byPeer.get [1] = some (chanOf 2 2) ∧
    (run ownReset init [0, 0, 0, 0, 1, 2, 1, 2, 1, 1, 2, 2, 2, 2]).byId.get [2, 0] = some (chanOf 2 2) := by
  refine ⟨?_, ?_, quiet_of _ (by decide), by decide, by decide⟩
  · apply chanOf_keysDecide
    intro i loc ch h
    match i with
    | 0 => cases h; exact ⟨rfl, 2, 1, rfl⟩
    | 1 => cases h
    | 2 => cases h; exact ⟨rfl, 2, 2, rfl⟩
    | i + 3 => cases h
  · intro i
    match i with
    | 0 => exact .inl ⟨_, rfl⟩
    | 1 => exact .inr ⟨_, rfl⟩
    | 2 => exact .inl ⟨_, rfl⟩
    | i + 3 => exact .inr ⟨_, rfl⟩

/-- Also the run that leaves ids behind is one with one local id: what is used for sending is usable. -/
example : OneLocal twoRequests [7] ∧ Usable (run twoRequests init [0, 1, 1, 1, 1, 1, 1, 0, 0, 0]) := by
  have h : OneLocal twoRequests [7] := by
    intro i
    match i with
    | 0 => exact .inl ⟨_, rfl⟩
    | 1 => exact .inl ⟨_, rfl⟩
    | i + 2 => exact .inr ⟨_, rfl⟩
  exact ⟨h, C100_usable_partial twoRequests_keysDecide [7] h _ (quiet_of _ (by decide))⟩

/-- `Calm` for the threads listed, as something to compute. -/
def calmB (jobs : Nat → Job) (ks : List Nat) : Sys → List Nat → Bool
  | _, [] => true
  | σ, i :: sched =>
    (decide (σ.pc i ≠ .idle) || ks.all fun k => match σ.pc k with
      | .busy todo false => todo.all fun a => match a with
        | .ins _ c => decide (c.peer ≠ (jobs i).peer)
        | .del _ => true
      | _ => true) && calmB jobs ks (step jobs σ i) sched

theorem calm_of {jobs : Nat → Job} {ks : List Nat} (sched : List Nat) : ∀ {σ : Sys}, (∀ k ∉ ks, σ.pc k = .idle) →
    (∀ k ∈ sched, k ∈ ks) → calmB jobs ks σ sched = true → Calm jobs σ sched := by
  induction sched with
  | nil => intros; trivial
  | cons i s ih =>
    intro σ h0 hs hb
    simp only [calmB, Bool.and_eq_true, Bool.or_eq_true, decide_eq_true_eq, List.all_eq_true] at hb
    refine ⟨?_, ih ?_ (fun k hk => hs k (List.mem_cons_of_mem _ hk)) hb.2⟩
    · intro hi k todo id c hk hm
      have hks : k ∈ ks := by
        by_contra hn
        rw [h0 k hn] at hk
        cases hk
      rcases hb.1 with h | h
      · exact absurd hi h
      · have := h k hks
        rw [hk] at this
        simp only [List.all_eq_true] at this
        simpa using this _ hm
    · intro k hk
      rw [step_pc_other]
      · exact h0 k hk
      · intro h; exact hk (h ▸ hs i (List.mem_cons_self ..))

/-- `C100_no_stale_partial` applies to a run in which the second channel replaces the first. -/
example : Calm twoRequests init [0, 0, 0, 1, 1, 0, 1, 1, 1, 1] ∧
    (run twoRequests init [0, 0, 0, 1, 1, 0, 1, 1, 1, 1]).byPeer.get [1] = some (chanOf 3 2) ∧
    NoStale (run twoRequests init [0, 0, 0, 1, 1, 0, 1, 1, 1, 1]) := by
  have h : Calm twoRequests init [0, 0, 0, 1, 1, 0, 1, 1, 1, 1] := by
    exact calm_of (ks := [0, 1]) _ (fun _ _ => rfl) (by decide) (by decide)
  exact ⟨h, by decide, C100_no_stale_partial _ h (quiet_of _ (by decide))⟩

section
variable {jobs : Nat → Job}

/-- C100: as long as nobody drops the channel of a peer, it is only ever replaced by a channel with another key and a
later date, whatever the threads do. -/
theorem C100_never_older (p : Bytes) (hd : ∀ i, (jobs i).peer = p → ∃ loc ch, jobs i = .create loc ch)
    (sched : List Nat) : ∀ (σ : Sys) (old : Chan), σ.byPeer.get p = some old →
    ∃ new, (run jobs σ sched).byPeer.get p = some new ∧ (new = old ∨ old.date < new.date) := by
  induction sched with
  | nil => intro σ old h; exact ⟨old, h, .inl rfl⟩
  | cons i sched ih =>
    intro σ old h
    have hs := step_rel jobs σ i
    have key : ∃ mid, (step jobs σ i).byPeer.get p = some mid ∧ (mid = old ∨ old.date < mid.date) := by
      generalize step jobs σ i = σ' at hs
      cases hs with
      | stay => exact ⟨old, h, .inl rfl⟩
      | nothing _ _ h1 => exact ⟨old, by rw [h1]; exact h, .inl rfl⟩
      | vacant loc ch _ _ _ _ hg _ h1 =>
        have hp : ch.peer ≠ p := by intro e; rw [e, h] at hg; cases hg
        exact ⟨old, by rw [h1, AMap.get_put_ne _ _ (Ne.symm hp)]; exact h, .inl rfl⟩
      | replace loc ch o _ _ _ _ hg hv _ h1 =>
        by_cases hp : ch.peer = p
        · subst hp
          rw [h] at hg
          cases hg
          refine ⟨ch, by rw [h1, AMap.get_put_self], .inr ?_⟩
          simp only [stillValid, Bool.or_eq_false_iff, decide_eq_false_iff_not] at hv
          omega
        · exact ⟨old, by rw [h1, AMap.get_put_ne _ _ (Ne.symm hp)]; exact h, .inl rfl⟩
      | drop o _ hj _ _ _ _ h1 =>
        have hp : (jobs i).peer ≠ p := by
          intro e
          obtain ⟨loc, ch, hc⟩ := hd i e
          exact hj loc ch hc
        exact ⟨old, by rw [h1, AMap.get_erase, if_neg (Ne.symm hp)]; exact h, .inl rfl⟩
      | access _ _ _ _ _ h1 => exact ⟨old, by rw [h1]; exact h, .inl rfl⟩
      | finish _ _ _ h1 => exact ⟨old, by rw [h1]; exact h, .inl rfl⟩
    obtain ⟨mid, hm, hmo⟩ := key
    obtain ⟨new, hn, hnm⟩ := ih _ mid hm
    refine ⟨new, hn, ?_⟩
    rcases hmo with rfl | hmo
    · exact hnm
    · rcases hnm with rfl | hnm
      · exact .inr hmo
      · exact .inr (by omega)

/-- C100: a request that gets its locks leaves a channel with its key or one that is not older, and with exactly that
rule: the old channel is kept if it has the same key or is not older, and otherwise replaced by the new one. -/
theorem C100_request_decides (σ : Sys) (i : Nat) (loc : Bytes) (ch : Chan) (hj : jobs i = .create loc ch)
    (hi : σ.pc i = .idle) (hl : σ.locked ch.peer = false) (hw : σ.writer (loc, ch.peer) = false) :
    (∀ old, σ.byPeer.get ch.peer = some old → (old.key = ch.key ∨ ch.date ≤ old.date) →
      (step jobs σ i).byPeer.get ch.peer = some old) ∧
    ((∀ old, σ.byPeer.get ch.peer = some old → old.key ≠ ch.key ∧ old.date < ch.date) →
      (step jobs σ i).byPeer.get ch.peer = some ch) := by
  have e : step jobs σ i = begin σ i (.create loc ch) := by simp only [step, hi, hj]
  rw [e]
  simp only [begin, hl, hw, Bool.or_self, Bool.false_eq_true, if_false]
  constructor
  · intro old ho hv
    have hv' : stillValid old ch = true := by
      simp only [stillValid, Bool.or_eq_true, decide_eq_true_eq]; exact hv
    simp only [ho, hv', if_true, release]
    exact ho
  · intro hn
    cases ho : σ.byPeer.get ch.peer with
    | none => simp only [AMap.get_put_self]
    | some old =>
      obtain ⟨h1, h2⟩ := hn old ho
      have hv' : stillValid old ch = false := by
        simp only [stillValid, Bool.or_eq_false_iff, decide_eq_false_iff_not]
        exact ⟨h1, by omega⟩
      simp only [hv', Bool.false_eq_true, if_false, AMap.get_put_self]

end

/-- Two requests with the same date. -/
def sameDate : Nat → Job
  | 0 => .create [7] (chanOf 2 1)
  | 1 => .create [7] (chanOf 3 1)
  | _ => .remove [9]

/-- The first of them stays; a later one replaces the earlier one (`twoRequests`). -/
example : (∀ i, (sameDate i).peer = [1] → ∃ loc ch, sameDate i = .create loc ch) ∧
    (run sameDate init [0, 0, 0, 0, 1]).byPeer.get [1] = some (chanOf 2 1) ∧
    (run twoRequests init [0, 0, 0, 0]).byPeer.get [1] = some (chanOf 2 1) ∧
    (run twoRequests init [0, 0, 0, 0, 1]).byPeer.get [1] = some (chanOf 3 2) := by
  refine ⟨?_, by decide, by decide, by decide⟩
  intro i h
  match i with
  | 0 => exact ⟨_, _, rfl⟩
  | 1 => exact ⟨_, _, rfl⟩
  | i + 2 => exact absurd h (by decide : ([9] : Bytes) ≠ [1])

example := C100_never_older (jobs := sameDate) [1] (by
  intro i h
  match i with
  | 0 => exact ⟨_, _, rfl⟩
  | 1 => exact ⟨_, _, rfl⟩
  | i + 2 => exact absurd h (by decide : ([9] : Bytes) ≠ [1])) [1, 1, 1, 1, 1] (run sameDate init [0, 0, 0, 0]) (chanOf 2 1)
  (by decide)

end Verif.ChannelConc
