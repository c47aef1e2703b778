import Verif.Props.OverlayConc
import Verif.Props.OverlayOnce

/-!
# C131: packets of FEC broadcasts handled by several tasks at once
-/
namespace Verif.Overlay.Conc
open Verif.Tl Verif.AdnlProto Verif.Rldp Verif.Overlay

variable {c : Crypto} {f : Fec}

/-- A packet with this number of this broadcast is passed on. -/
def Event.isPart (bid : Bytes) (n : Nat) : Event → Bool
  | .passedPart b => decide (b.dataHash = bid ∧ b.seqno = n)
  | _ => false

/-- A task that is going to pass on the packet. -/
def Thread.isPart (bid : Bytes) (n : Nat) : Thread c → Bool
  | .load _ _ b | .send _ _ b | .forward _ b => decide (b.dataHash = bid ∧ b.seqno = n)
  | _ => false

def isNoted (bid : Bytes) (n : Nat) (t : Transfer c f) : Bool := decide (t.bid = bid) && PacketsHistory.bitOf t.hist n

def isOf (bid : Bytes) (t : Transfer c f) : Bool := decide (t.bid = bid)

/-- What the steps keep of the transfers. -/
structure Grows (bid : Bytes) (n : Nat) (s s' : Overlay.State c f) : Prop where
  flat : Flat s'
  noted : s.transfers.countP (isNoted bid n) ≤ s'.transfers.countP (isNoted bid n)
  count : s'.transfers.countP (isOf bid) = s.transfers.countP (isOf bid)

theorem grows_same {bid : Bytes} {n : Nat} {s s' : Overlay.State c f} (hf : Flat s) (h : s'.transfers = s.transfers) :
    Grows bid n s s' := by
  refine ⟨?_, by rw [h], by rw [h]⟩
  unfold Flat; rw [h]; exact hf

theorem grows_set {bid : Bytes} {n : Nat} {s : Overlay.State c f} (hf : Flat s) {i : Nat} {t t' : Transfer c f}
    (ht : s.transfers[i]? = some t) (hb : t'.bid = t.bid) (hi : t'.hist.index = 0)
    (hn : PacketsHistory.bitOf t.hist n = true → PacketsHistory.bitOf t'.hist n = true) :
    Grows bid n s { s with transfers := s.transfers.set i t' } := by
  refine ⟨flat_set hf hi, ?_, ?_⟩
  · have h1 := countP_set (isNoted bid n) ht t'
    have h2 : isNoted bid n t = true → isNoted bid n t' = true := by
      unfold isNoted
      simp only [Bool.and_eq_true, decide_eq_true_eq, hb]
      exact fun h => ⟨h.1, hn h.2⟩
    simp only
    by_cases h3 : isNoted bid n t = true
    · rw [h2 h3, h3] at h1; omega
    · rw [if_neg h3] at h1; omega
  · have h1 := countP_set (isOf bid) ht t'
    have h2 : isOf bid t' = isOf bid t := by unfold isOf; rw [hb]
    rw [h2] at h1
    simp only
    omega

theorem Grows.trans {bid : Bytes} {n : Nat} {s s' s'' : Overlay.State c f} (h : Grows bid n s s')
    (h' : Grows bid n s' s'') : Grows bid n s s'' :=
  ⟨h'.flat, Nat.le_trans h.noted h'.noted, h'.count.trans h.count⟩

theorem task_grows {bid : Bytes} {n : Nat} {e : Env} {s : Overlay.State c f} (hf : Flat s) (i : Nat) :
    Grows bid n s (taskStep c f e s i).1 := by
  unfold taskStep
  split
  · exact grows_same hf rfl
  · next t ht =>
    have hi : t.hist.index = 0 := hf t (List.mem_of_getElem? ht)
    split
    · exact grows_same hf rfl
    · split
      · split
        · exact grows_same hf rfl
        · exact grows_set hf ht (t' := { t with phase := .leaving }) rfl hi id
      · next pub b rest hc =>
        split
        · next dec data hp =>
          exact grows_set hf ht (t' := { t with dec := dec, chan := rest, packets := t.packets + 1, phase := .leaving })
            rfl hi id
        · next dec hp =>
          exact grows_set hf ht (t' := { t with dec := dec, chan := rest, packets := t.packets + 1 }) rfl hi id
        · next dec hp =>
          exact grows_set hf ht (t' := { t with dec := dec, chan := rest, packets := t.packets + 1, phase := .leaving })
            rfl hi id

theorem mark_grows {bid : Bytes} {n : Nat} {s : Overlay.State c f} (hf : Flat s) (i : Nat) :
    Grows bid n s (markStep c f s i) := by
  unfold markStep
  split
  · exact grows_same hf rfl
  · next t ht =>
    split
    · exact grows_same hf rfl
    · have h1 := grows_set (bid := bid) (n := n) hf ht (t' := { t with phase := .ended }) rfl
        (hf t (List.mem_of_getElem? ht)) id
      simp only
      split
      · split
        · next u hu =>
          exact h1.trans (grows_set (s := { s with transfers := s.transfers.set i { t with phase := .ended } }) h1.flat hu
            (t' := { u with completed := true }) rfl (h1.flat u (List.mem_of_getElem? hu)) id)
        · exact h1
      · exact h1

/-- What a step of a task that handles a message passes on, or may still pass on, is taken note of. -/
def PaysPart (bid : Bytes) (n : Nat) (s : Overlay.State c f) (th : Thread c)
    (r : Overlay.State c f × Thread c × List Event) : Prop :=
  Flat r.1 ∧
  (if r.2.1.isPart bid n then 1 else 0) + r.2.2.countP (Event.isPart bid n) + s.transfers.countP (isNoted bid n) ≤
    (if th.isPart bid n then 1 else 0) + r.1.transfers.countP (isNoted bid n) ∧
  r.1.transfers.countP (isOf bid) + known bid s ≤ s.transfers.countP (isOf bid) + known bid r.1

theorem threadStep_paysPart {e : Env} {as : List Act} (has : ∀ now b, .fec now b ∈ as → b.seqno < 256)
    {s : Overlay.State c f} (hf : Flat s) {th : Thread c} (hth : ThreadOk e as s.transfers th) (bid : Bytes) {n : Nat}
    (hn : n < 256) : PaysPart bid n s th (threadStep c f e s th) := by
  have quiet : ∀ (s' : Overlay.State c f) (th' : Thread c) (evs : List Event), known bid s ≤ known bid s' →
      Grows bid n s s' → (th'.isPart bid n = true → th.isPart bid n = true) → (∀ ev ∈ evs, ev.isPart bid n = false) →
      PaysPart bid n s th (s', th', evs) := by
    intro s' th' evs hk hg h1 h2
    have c1 : evs.countP (Event.isPart bid n) = 0 := by
      rw [List.countP_eq_zero]; intro ev hev; simp [h2 ev hev]
    refine ⟨hg.flat, ?_, ?_⟩
    · have := hg.noted
      simp only [c1]
      by_cases h3 : th'.isPart bid n = true
      · rw [if_pos h3, if_pos (h1 h3)]; omega
      · rw [if_neg h3]; omega
    · have := hg.count
      simp only
      omega
  have nil : ∀ ev ∈ ([] : List Event), ev.isPart bid n = false := fun ev h => by cases h
  have one : ∀ x : Event, x.isPart bid n = false → ∀ ev ∈ [x], ev.isPart bid n = false := fun x hx ev h => by
    simp only [List.mem_singleton] at h; subst h; exact hx
  have no : ∀ th' : Thread c, th'.isPart bid n = false → (th'.isPart bid n = true → th.isPart bid n = true) :=
    fun th' h1 h2 => by rw [h1] at h2; cases h2
  have kput : ∀ (k : Bytes) (v : Owned) (s' : Overlay.State c f), s'.owned = s.owned.put k v → known bid s ≤ known bid s' := by
    intro k v s' h
    rw [known_put bid k v s s' h]
    have : known bid s ≤ 1 := by unfold known; split <;> omega
    split <;> omega
  cases th with
  | ordinary now b =>
    simp only [threadStep]
    split
    · exact quiet _ _ _ (Nat.le_refl _) (grows_same hf rfl) (no _ rfl) nil
    · exact quiet _ _ _ (Nat.le_refl _) (grows_same hf rfl) (no _ rfl) (one _ rfl)
    · split
      · exact quiet _ _ _ (Nat.le_refl _) (grows_same hf rfl) (no _ rfl) nil
      · exact quiet _ _ _ (kput _ _ _ rfl) (grows_same hf rfl) (no _ rfl) nil
  | created b data source => exact quiet _ _ _ (Nat.le_refl _) (grows_same hf rfl) (no _ rfl) (one _ rfl)
  | pushed b => exact quiet _ _ _ (Nat.le_refl _) (grows_same hf rfl) (no _ rfl) (one _ rfl)
  | cleaning b => exact quiet _ _ _ (Nat.le_refl _) (grows_same hf rfl) (no _ rfl) nil
  | own b =>
    simp only [threadStep]
    split
    · exact quiet _ _ _ (Nat.le_refl _) (grows_same hf rfl) (no _ rfl) nil
    · exact quiet _ _ _ (kput _ _ _ rfl) (grows_same hf rfl) (no _ rfl) nil
  | fec now b =>
    simp only [threadStep]
    split
    · exact quiet _ _ _ (Nat.le_refl _) (grows_same hf rfl) (no _ rfl) (one _ rfl)
    · exact quiet _ _ _ (Nat.le_refl _) (grows_same hf rfl) (no _ rfl) nil
    · split
      · exact quiet _ _ _ (Nat.le_refl _) (grows_same hf rfl) (no _ rfl) (one _ rfl)
      · split
        · exact quiet _ _ _ (Nat.le_refl _) (grows_same hf rfl) (no _ rfl) (one _ rfl)
        · split
          · exact quiet _ _ _ (Nat.le_refl _) (grows_same hf rfl) (no _ rfl) nil
          · exact quiet _ _ _ (Nat.le_refl _) (grows_same hf rfl) (no _ rfl) nil
          · next hnone =>
            have hk : ∀ src, known bid (newTransfer c f e s b src) = if bid = b.dataHash then 1 else known bid s :=
              fun src => known_put bid b.dataHash (.incoming s.transfers.length) s _ rfl
            refine ⟨?_, ?_, ?_⟩
            · intro t ht
              simp only [newTransfer, List.mem_append, List.mem_singleton] at ht
              rcases ht with ht | rfl
              · exact hf t ht
              · rfl
            · simp only [newTransfer, List.countP_append, Thread.isPart, List.countP_nil]
              simp
            · simp only [hk]
              simp only [newTransfer, List.countP_append, List.countP_cons, List.countP_nil, isOf,
                Nat.zero_add]
              by_cases hb : bid = b.dataHash
              · rw [hb, known_of_none hnone]; simp
              · simp [hb, Ne.symm hb]
  | refresh i pub b =>
    simp only [threadStep]
    split
    · exact quiet _ _ _ (Nat.le_refl _) (grows_same hf rfl) (no _ rfl) nil
    · next t ht =>
      have hg := grows_set (bid := bid) (n := n) hf ht (t' := { t with updatedAt := (s.clock - t.startedAt) / 1000 }) rfl
        (hf t (List.mem_of_getElem? ht)) id
      split
      · exact quiet _ _ _ (Nat.le_refl _) hg (no _ rfl) nil
      · exact quiet _ _ _ (Nat.le_refl _) hg (no _ rfl) nil
  | deliver i pub b =>
    obtain ⟨⟨⟨now, hcame⟩, _⟩, t', ht', hbid, _⟩ := hth
    have hb := has now b hcame
    simp only [threadStep, ht']
    have hi : t'.hist.index = 0 := hf t' (List.mem_of_getElem? ht')
    have hi' := PacketsHistory.deliver_index t'.hist hi b.seqno
    have hbit := PacketsHistory.bitOf_deliver t'.hist hi b.seqno n hn
    have hacc := PacketsHistory.accepts_iff t'.hist hi b.seqno
    rw [if_pos hb] at hbit
    cases hd : PacketsHistory.deliver t'.hist b.seqno with
    | mk h r =>
      rw [hd] at hi' hbit hacc
      simp only at hi' hbit hacc ⊢
      have hmono : PacketsHistory.bitOf t'.hist n = true → PacketsHistory.bitOf h n = true := by
        intro hb; rw [hbit, hb]; rfl
      have hg := grows_set (bid := bid) (n := n) hf ht' (t' := { t' with hist := h }) rfl hi' hmono
      cases r with
      | false => exact quiet _ _ _ (Nat.le_refl _) hg (no _ rfl) nil
      | true =>
        by_cases hc : b.dataHash = bid ∧ b.seqno = n
        · obtain ⟨rfl, rfl⟩ := hc
          have hfresh : PacketsHistory.bitOf t'.hist b.seqno = false := by
            rcases hacc.mp rfl with h1 | h1
            · omega
            · exact h1
          refine ⟨hg.flat, ?_, ?_⟩
          · have h1 := countP_set (isNoted b.dataHash b.seqno) ht' { t' with hist := h }
            have h2 : isNoted b.dataHash b.seqno t' = false := by unfold isNoted; rw [hfresh]; simp
            have h3 : isNoted b.dataHash b.seqno { t' with hist := h } = true := by
              unfold isNoted
              simp [hbid, hbit]
            rw [h2, h3] at h1
            simp only [if_true, Thread.isPart, and_self, decide_true, List.countP_nil]
            simp at h1 ⊢
            omega
          · have h1 := hg.count
            simp only at h1 ⊢
            rw [h1]
            exact Nat.le_refl _
        · refine quiet _ _ _ (Nat.le_refl _) hg (no _ ?_) nil
          simp [Thread.isPart, hc]
  | load i pub b =>
    simp only [threadStep]
    split
    · exact quiet _ _ _ (Nat.le_refl _) (grows_same hf rfl) (no _ rfl) nil
    · refine quiet _ _ _ (Nat.le_refl _) (grows_same hf rfl) ?_ nil
      split <;> exact id
  | send i pub b =>
    simp only [threadStep]
    split
    · exact quiet _ _ _ (Nat.le_refl _) (grows_same hf rfl) (no _ rfl) nil
    · next t ht =>
      split
      · exact quiet _ _ _ (Nat.le_refl _) (grows_same hf rfl) (no _ rfl) (one _ rfl)
      · exact quiet _ _ _ (Nat.le_refl _) (grows_set hf ht (t' := { t with chan := t.chan ++ [(pub, b)] }) rfl
          (hf t (List.mem_of_getElem? ht)) id) id nil
  | forward i b =>
    refine ⟨hf, ?_, Nat.le_refl _⟩
    simp only [threadStep, Thread.isPart, List.countP_cons, List.countP_nil, Event.isPart]
    simp
  | done => exact quiet _ _ _ (Nat.le_refl _) (grows_same hf rfl) (no _ rfl) nil

def parts (bid : Bytes) (n : Nat) (s : State c f) : Nat :=
  s.log.countP (Event.isPart bid n) + s.threads.countP (Thread.isPart bid n)

structure PInv (bid : Bytes) (n : Nat) (s : State c f) : Prop where
  flat : Flat s.shared
  parts : parts bid n s ≤ s.shared.transfers.countP (isNoted bid n)
  count : s.shared.transfers.countP (isOf bid) ≤ times bid s

theorem PInv.other {bid : Bytes} {n : Nat} {s s' : State c f} (h : PInv bid n s) (hg : Grows bid n s.shared s'.shared)
    (hp : Conc.parts bid n s' = Conc.parts bid n s) (ht : times bid s ≤ times bid s') : PInv bid n s' :=
  ⟨hg.flat, by rw [hp]; exact Nat.le_trans h.parts hg.noted, by rw [hg.count]; exact Nat.le_trans h.count ht⟩

theorem PInv.step {bid : Bytes} {n : Nat} (hn : n < 256) {e : Env} {as : List Act}
    (has : ∀ now b, .fec now b ∈ as → b.seqno < 256) {s : State c f} (hC : CInv e as s) (h : PInv bid n s) (a : Act) :
    PInv bid n (step c f e s a) := by
  have spawn : ∀ th : Thread c, th.isPart bid n = false → PInv bid n { s with threads := s.threads ++ [th] } := by
    intro th hth
    refine h.other (grows_same h.flat rfl) ?_ (Nat.le_refl _)
    unfold Conc.parts
    simp [List.countP_append, hth]
  have tm : ∀ {s' : State c f}, s'.log = s.log → s'.shared.owned = s.shared.owned → times bid s ≤ times bid s' := by
    intro s' h1 h2
    unfold times known
    rw [h1, h2]
  have same : ∀ {s' : State c f}, s'.shared.transfers = s.shared.transfers → s'.shared.owned = s.shared.owned →
      s'.log = s.log → s'.threads = s.threads → PInv bid n s' := by
    intro s' h1 h2 h3 h4
    exact h.other (grows_same h.flat h1) (by unfold Conc.parts; rw [h3, h4]) (tm h3 h2)
  cases a with
  | ordinary now b => exact spawn _ rfl
  | fec now b => exact spawn _ rfl
  | own b => exact spawn _ rfl
  | thread k =>
    simp only [Conc.step]
    split
    · exact h
    · next th hth =>
      obtain ⟨h1, h2, h3⟩ := threadStep_paysPart has h.flat (hC.threads th (List.mem_of_getElem? hth)) bid hn
      obtain ⟨_, _, h4⟩ := threadStep_pays e s.shared th bid
      have c1 := countP_set (Thread.isPart bid n) hth (threadStep c f e s.shared th).2.1
      have h5 := h.parts
      have h6 := h.count
      generalize threadStep c f e s.shared th = r at *
      obtain ⟨sh, th', ev⟩ := r
      unfold Conc.parts at h5
      unfold times at h6
      simp only at h1 h2 h3 h4 c1
      refine ⟨h1, ?_, ?_⟩
      · unfold Conc.parts
        simp only [List.countP_append]
        omega
      · unfold times
        simp only [List.countP_append]
        omega
  | task i =>
    simp only [Conc.step, receiverStep]
    split
    · exact h
    · next t ht =>
      split
      · exact h
      · refine h.other (task_grows h.flat i) ?_ ?_
        · unfold Conc.parts
          simp only [List.countP_append]
          cases (taskStep c f e s.shared i).2.delivered <;> simp [Event.isPart]
        · unfold times known
          rw [Takeover.task_owned]
          simp only [List.countP_append]
          omega
  | mark i => exact h.other (mark_grows h.flat i) rfl (tm rfl (Takeover.mark_owned _ _))
  | cleanup i =>
    refine same ?_ (Takeover.cleanup_owned _ _ _) rfl rfl
    simp only [Conc.step, Overlay.step, cleanupStep]
    split
    · rfl
    · split
      · rfl
      · split <;> rfl
  | tick ms => exact same rfl rfl rfl rfl
  | expire i =>
    simp only [Conc.step, Overlay.step]
    split
    · exact same rfl rfl rfl rfl
    · split <;> exact same rfl rfl rfl rfl
  | push i =>
    simp only [Conc.step, Overlay.step]
    split <;> exact same rfl rfl rfl rfl
  | gcCheck =>
    simp only [Conc.step, Overlay.step]
    split <;> exact same rfl rfl rfl rfl
  | gcSub =>
    simp only [Conc.step, Overlay.step]
    split <;> exact same rfl rfl rfl rfl
  | gcPop =>
    have hfor : (forgets c f s.shared).countP (Event.isPart bid n) = 0 := by
      unfold forgets
      split
      · split
        · rfl
        · split <;> rfl
      · rfl
    refine h.other (grows_same h.flat ?_) ?_ ?_
    · simp only [Conc.step, Overlay.step]
      split
      · split <;> rfl
      · rfl
    · unfold Conc.parts
      simp only [Conc.step, List.countP_append, hfor]
      omega
    · simp only [Conc.step, Overlay.step, forgets]
      split
      · split
        · next hq => unfold times known; simp [hq]
        · next b rest hq =>
          unfold times known
          simp only [List.countP_append, AMap.get_erase, hq]
          by_cases hb : bid = b
          · subst hb
            cases ho : (s.shared.owned.get bid).isSome <;> simp [Event.isForgotten]
          · simp [hb]
      · unfold times; simp

/-- C131: while the broadcast is remembered, a packet of an FEC broadcast with a number below 256 is passed on by one
task only, however many tasks handle it at once (if no larger numbers come; those are passed on every time,
`C65_large_numbers_always`). -/
theorem C131_parts (e : Env) (as : List Act) (has : ∀ now b, .fec now b ∈ as → b.seqno < 256) (bid : Bytes) (n : Nat)
    (hn : n < 256) :
    (history c f e as).countP (Event.isPart bid n) ≤ (history c f e as).countP (Event.isForgotten bid) + 1 := by
  have key : ∀ (bs : List Act), (∀ b ∈ bs, b ∈ as) → ∀ (s : State c f), CInv e as s → PInv bid n s →
      PInv bid n (run c f e s bs) := by
    intro bs
    induction bs with
    | nil => intro _ s _ h; exact h
    | cons b bs ih =>
      intro hb s hC h
      exact ih (fun x hx => hb x (List.mem_cons_of_mem _ hx)) _ (hC.step (hb b List.mem_cons_self)) (h.step hn has hC b)
  have h := key as (fun _ h => h) _ (CInv.init (c := c) (f := f) e as)
    ⟨fun t ht => absurd ht List.not_mem_nil, Nat.le_refl _, Nat.zero_le _⟩
  have h1 := h.parts
  have h2 := h.count
  have h3 : (run c f e (State.init c f) as).shared.transfers.countP (isNoted bid n) ≤
      (run c f e (State.init c f) as).shared.transfers.countP (isOf bid) := by
    refine List.countP_mono_left ?_
    intro t _ ht
    unfold isNoted at ht
    simp only [Bool.and_eq_true] at ht
    exact ht.1
  have h4 : known bid (run c f e (State.init c f) as).shared ≤ 1 := by unfold known; split <;> omega
  unfold parts at h1
  unfold times at h2
  unfold history
  omega

-- C131_parts: passed on once though two copies were handled at once
example : (history Crypto.toy Fec.toy sampleEnv raceFec).countP (Event.isPart samplePart.dataHash samplePart.seqno) = 1 ∧
    (history Crypto.toy Fec.toy sampleEnv raceFec).countP (Event.isPart samplePart.dataHash samplePart.seqno) ≤
      (history Crypto.toy Fec.toy sampleEnv raceFec).countP (Event.isForgotten samplePart.dataHash) + 1 := by
  refine ⟨by rw [raceFec_history]; decide +kernel, C131_parts _ _ ?_ _ _ (by decide)⟩
  intro now b h
  simp only [raceFec, List.mem_cons, Act.fec.injEq, reduceCtorEq, List.not_mem_nil, or_false] at h
  rcases h with ⟨_, rfl⟩ | ⟨_, rfl⟩ <;> decide

end Verif.Overlay.Conc
