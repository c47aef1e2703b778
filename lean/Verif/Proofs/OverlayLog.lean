import Verif.Model.OverlayBroadcast
import Verif.Proofs.AMap
import Mathlib.Data.List.Perm.Basic
import Mathlib.Data.List.Nodup

/-!
# The log of broadcasts: what a step does to the table, the clean-up tasks and the queue
-/
namespace Verif.Overlay
open Verif.Rldp

variable {c : Crypto} {f : Fec}

/-- The part of the state that decides which broadcasts are remembered. -/
structure View where
  clock : Nat
  keys : List Bytes
  cl : List Bytes
  timers : List (Bytes × Nat)
  counted : List Bytes
  queue : List Bytes
  count : Nat
  gc : GcPc

def view (s : State c f) : View :=
  ⟨s.clock, s.owned.keys, s.cleanups.map (·.1), s.timers, s.counted, s.queue, s.count, s.gc⟩

/-- What a step can do to the view. -/
inductive Eff (e : Env) : View → View → Prop where
  | same (v : View) (t : Nat) (h : v.clock ≤ t) : Eff e v { v with clock := t }
  | create (v : View) (bid : Bytes) (h : bid ∉ v.keys) :
      Eff e v { v with keys := bid :: v.keys, timers := v.timers ++ [(bid, v.clock + 1000 * e.timeout)] }
  | createFec (v : View) (bid : Bytes) (h : bid ∉ v.keys) :
      Eff e v { v with keys := bid :: v.keys, cl := v.cl ++ [bid] }
  | cleanup (v : View) (i : Nat) (bid : Bytes) (h : v.cl[i]? = some bid) :
      Eff e v { v with cl := v.cl.eraseIdx i,
                       timers := v.timers ++ [(bid, v.clock + 1000 * e.timeout)] }
  | expire (v : View) (i : Nat) (bid : Bytes) (due : Nat) (h : v.timers[i]? = some (bid, due))
      (hd : due ≤ v.clock) :
      Eff e v { v with timers := v.timers.eraseIdx i, counted := v.counted ++ [bid],
                       count := v.count + 1 }
  | push (v : View) (i : Nat) (bid : Bytes) (h : v.counted[i]? = some bid) :
      Eff e v { v with counted := v.counted.eraseIdx i, queue := v.queue ++ [bid] }
  | check (v : View) (h : v.gc = .idle) (hc : v.count > e.maxLog) : Eff e v { v with gc := .pop }
  | popNone (v : View) (h : v.gc = .pop) (hq : v.queue = []) : Eff e v { v with gc := .sub }
  | pop (v : View) (bid : Bytes) (rest : List Bytes) (h : v.gc = .pop) (hq : v.queue = bid :: rest) :
      Eff e v { v with gc := .sub, queue := rest, keys := v.keys.filter (fun k => k ≠ bid) }
  | sub (v : View) (h : v.gc = .sub) : Eff e v { v with gc := .idle, count := v.count - 1 }

theorem keys_put_new {m : AMap Bytes Owned} {k : Bytes} (h : m.get k = none) (x : Owned) :
    (m.put k x).keys = k :: m.keys := by
  simp [AMap.put, AMap.erase_of_get_none h, AMap.keys]

theorem keys_erase (m : AMap Bytes Owned) (k : Bytes) :
    (m.erase k).keys = m.keys.filter (fun x => x ≠ k) := by
  simp only [AMap.erase, AMap.keys, List.filter_map]
  rfl

theorem map_fst_eraseIdx {α β : Type} (l : List (α × β)) (i : Nat) :
    (l.eraseIdx i).map (·.1) = (l.map (·.1)).eraseIdx i := by
  induction l generalizing i with
  | nil => simp
  | cons x xs ih => cases i <;> simp [ih]

theorem Eff.refl (e : Env) (v : View) : Eff e v v := Eff.same v v.clock (Nat.le_refl _)

theorem feed_view (s : State c f) (i : Nat) (t : Transfer c f) (pub : c.Pub) (source : Bytes)
    (b : FecPart) : view (feed c f s i t pub source b).1 = view s := by
  unfold feed
  simp only
  split
  · rfl
  · split
    · rfl
    · split
      · rfl
      · split <;> rfl

theorem step_eff (e : Env) (s : State c f) (a : Action) : Eff e (view s) (view (step c f e s a).1) := by
  cases a with
  | tick ms => exact Eff.same _ _ (Nat.le_add_right _ _)
  | ordinary now b =>
    simp only [step, receiveOrdinary]
    cases h : checkOrdinary c e now b with
    | outdated => exact Eff.refl _ _
    | failed => exact Eff.refl _ _
    | ok bid data source =>
      simp only
      cases h2 : s.owned.get bid with
      | some x => exact Eff.refl _ _
      | none =>
        have := Eff.create (e := e) (view s) bid (AMap.get_eq_none_iff.mp h2)
        simpa [view, State.spawnGc, keys_put_new h2] using this
  | fec now b =>
    simp only [step, receiveFec]
    cases isOutdated e b.date now with
    | none => exact Eff.refl _ _
    | some x =>
      cases x with
      | true => exact Eff.refl _ _
      | false =>
        simp only
        cases Receiver.fullId c b.src with
        | none => exact Eff.refl _ _
        | some pub =>
          simp only
          split
          · exact Eff.refl _ _
          · have hs : ∃ s', s' = (if (s.owned.get b.dataHash).isNone = true then
                newTransfer c f e s b (Node.shortId c pub) else s) := ⟨_, rfl⟩
            obtain ⟨s', hs'⟩ := hs
            rw [← hs']
            have hv : Eff e (view s) (view s') := by
              rw [hs']
              cases h2 : s.owned.get b.dataHash with
              | some x => exact Eff.refl _ _
              | none =>
                have := Eff.createFec (e := e) (view s) b.dataHash (AMap.get_eq_none_iff.mp h2)
                simpa [view, newTransfer, keys_put_new h2] using this
            split
            · split
              · rw [feed_view]; exact hv
              · exact hv
            · exact hv
  | own bid =>
    simp only [step, createOwn]
    cases h2 : s.owned.get bid with
    | some x => exact Eff.refl _ _
    | none =>
      have := Eff.create (e := e) (view s) bid (AMap.get_eq_none_iff.mp h2)
      simpa [view, State.spawnGc, keys_put_new h2] using this
  | task i =>
    simp only [step, taskStep]
    split
    · exact Eff.refl _ _
    · split
      · exact Eff.refl _ _
      · split
        · split <;> exact Eff.refl _ _
        · split <;> exact Eff.refl _ _
  | mark i =>
    simp only [step, markStep]
    split
    · exact Eff.refl _ _
    · split
      · exact Eff.refl _ _
      · split
        · split <;> exact Eff.refl _ _
        · exact Eff.refl _ _
  | cleanup i =>
    simp only [step, cleanupStep]
    cases h : s.cleanups[i]? with
    | none => exact Eff.refl _ _
    | some p =>
      obtain ⟨bid, due⟩ := p
      simp only
      split
      · exact Eff.refl _ _
      · generalize keepsWaiting c f e s bid = w
        have hb : (s.cleanups.map (·.1))[i]? = some bid := by simp [h]
        cases w with
        | true =>
          have : (s.cleanups.set i (bid, s.clock + 100 * e.timeout)).map (·.1) = s.cleanups.map (·.1) := by
            rw [List.map_set]
            apply List.ext_getElem?
            intro j
            rw [List.getElem?_set]
            split
            · next hij => subst hij; split
                          · rw [hb]
                          · next hlt => simp only [List.length_map] at hlt
                                        rw [List.getElem?_eq_none (by simpa using hlt)]
            · rfl
          have h3 : view { s with cleanups := s.cleanups.set i (bid, s.clock + 100 * e.timeout) } = view s := by
            simp only [view, this]
          simp only [if_true]
          rw [h3]; exact Eff.refl _ _
        | false =>
          have := Eff.cleanup (e := e) (view s) i bid hb
          simpa [view, State.spawnGc, map_fst_eraseIdx] using this
  | expire i =>
    simp only [step]
    cases h : s.timers[i]? with
    | none => exact Eff.refl _ _
    | some p =>
      obtain ⟨bid, due⟩ := p
      simp only
      split
      · exact Eff.refl _ _
      · next hd => exact Eff.expire (e := e) (view s) i bid due h (Nat.le_of_not_lt hd)
  | push i =>
    simp only [step]
    cases h : s.counted[i]? with
    | none => exact Eff.refl _ _
    | some bid => exact Eff.push (e := e) (view s) i bid h
  | gcCheck =>
    simp only [step]
    split
    · next h => exact Eff.check (e := e) (view s) h.1 h.2
    · exact Eff.refl _ _
  | gcPop =>
    simp only [step]
    split
    · next h =>
      cases hq : s.queue with
      | nil =>
        have := Eff.popNone (e := e) (view s) h hq
        simpa [view, hq] using this
      | cons bid rest =>
        have := Eff.pop (e := e) (view s) bid rest h hq
        simpa [view, keys_erase] using this
    · exact Eff.refl _ _
  | gcSub =>
    simp only [step]
    split
    · next h => exact Eff.sub (e := e) (view s) h
    · exact Eff.refl _ _

/-! ### Every remembered broadcast has exactly one clean-up task or place in the queue -/

/-- The broadcasts with a clean-up task or a place in the queue. -/
def View.tokens (v : View) : List Bytes := v.cl ++ (v.timers.map (·.1) ++ (v.counted ++ v.queue))

/-- Each remembered broadcast has exactly one. -/
structure TInv (v : View) : Prop where
  perm : v.tokens.Perm v.keys
  nodup : v.keys.Nodup

theorem eraseIdx_perm {α : Type} {l : List α} {i : Nat} {a : α} (h : l[i]? = some a) :
    (a :: l.eraseIdx i).Perm l := by
  obtain ⟨hi, rfl⟩ := List.getElem?_eq_some_iff.mp h
  exact List.getElem_cons_eraseIdx_perm hi

theorem TInv.eff {e : Env} {v v' : View} (h : TInv v) (he : Eff e v v') : TInv v' := by
  obtain ⟨hp, hn⟩ := h
  cases he with
  | same t _ => exact ⟨hp, hn⟩
  | create bid hb =>
    refine ⟨?_, List.nodup_cons.mpr ⟨hb, hn⟩⟩
    simp only [View.tokens, List.map_append, List.map_cons, List.map_nil]
    refine List.Perm.trans ?_ (hp.cons bid)
    simp only [View.tokens]
    rw [List.append_assoc, ← List.append_assoc v.cl]
    refine List.perm_middle.trans ?_
    simp
  | createFec bid hb =>
    refine ⟨?_, List.nodup_cons.mpr ⟨hb, hn⟩⟩
    simp only [View.tokens]
    refine List.Perm.trans ?_ (hp.cons bid)
    rw [List.append_assoc]
    exact List.perm_middle
  | cleanup i bid hb =>
    refine ⟨?_, hn⟩
    refine List.Perm.trans ?_ hp
    simp only [View.tokens, List.map_append, List.map_cons, List.map_nil]
    rw [List.append_assoc, ← List.append_assoc (v.cl.eraseIdx i)]
    refine List.perm_middle.trans ?_
    rw [List.append_assoc]
    exact ((eraseIdx_perm hb).append_right _)
  | expire i bid due hb hd =>
    refine ⟨?_, hn⟩
    refine List.Perm.trans ?_ hp
    simp only [View.tokens, map_fst_eraseIdx]
    refine List.Perm.append_left _ ?_
    rw [List.append_assoc, ← List.append_assoc]
    refine List.perm_middle.trans ?_
    rw [List.append_assoc]
    exact ((eraseIdx_perm (a := bid) (by simp [hb])).append_right _)
  | push i bid hb =>
    refine ⟨?_, hn⟩
    refine List.Perm.trans ?_ hp
    simp only [View.tokens]
    refine List.Perm.append_left _ (List.Perm.append_left _ ?_)
    rw [← List.append_assoc]
    refine List.perm_append_comm.trans ?_
    exact ((eraseIdx_perm hb).append_right _)
  | check _ _ => exact ⟨hp, hn⟩
  | popNone _ _ => exact ⟨hp, hn⟩
  | pop bid rest _ hq =>
    refine ⟨?_, hn.filter _⟩
    have h1 : (bid :: (v.cl ++ (v.timers.map (·.1) ++ (v.counted ++ rest)))).Perm v.keys := by
      refine List.Perm.trans ?_ hp
      simp only [View.tokens, hq]
      rw [← List.append_assoc, ← List.append_assoc, ← List.append_assoc, ← List.append_assoc]
      exact List.perm_middle.symm
    have h2 := h1.filter (fun k => decide (k ≠ bid))
    refine List.Perm.trans ?_ h2
    simp only [View.tokens]
    have h3 : bid ∉ v.cl ++ (v.timers.map (·.1) ++ (v.counted ++ rest)) :=
      (List.nodup_cons.mp (h1.nodup_iff.mpr hn)).1
    rw [List.filter_cons]
    simp only [ne_eq, not_true_eq_false, decide_false, Bool.false_eq_true, if_false]
    rw [List.filter_eq_self.mpr]
    intro x hx
    have : x ≠ bid := fun hc => h3 (hc ▸ hx)
    simpa using this
  | sub _ => exact ⟨hp, hn⟩

theorem TInv.init : TInv (view (State.init c f)) := ⟨List.Perm.refl _, List.nodup_nil⟩

theorem TInv.run (e : Env) (as : List Action) : ∀ {s : State c f}, TInv (view s) →
    TInv (view (run c f e s as)) := by
  induction as with
  | nil => intro s h; exact h
  | cons a as ih => intro s h; exact ih (h.eff (step_eff e s a))

end Verif.Overlay
