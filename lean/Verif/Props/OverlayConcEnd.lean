import Verif.Props.OverlayConc
import Mathlib.Data.List.Induction

/-!
# C142: the receiving task of an FEC broadcast outlives the tasks that hand it packets
-/
namespace Verif.Overlay.Conc
open Verif.Tl Verif.AdnlProto Verif.Rldp Verif.Overlay

variable {c : Crypto} {f : Fec}

/-! ### Specification -/

/-- A packet that ends a transfer without a result: its signature is not one by the source of the transfer, or the
decoder gives something that is not of the announced size, or of which neither the bytes nor their decompression have
the announced hash. -/
def Spoils (c : Crypto) (f : Fec) (e : Env) (t : Transfer c f) (p : c.Pub × FecPart) : Prop :=
  ¬ FecSigned c t.bid t.source p ∨
  ∃ r, (f.decode t.dec p.2.seqno p.2.data).2 = some r ∧
    (r.length ≠ p.2.dataSize ∨ (c.sha r ≠ t.bid ∧ ∀ d, decompress e.z r = some d → c.sha d ≠ t.bid))

/-- At some moment of the run the receiving task of transfer `i` took a packet from its channel and either gave the
broadcast to the application or met a packet that spoils the transfer. -/
def Decided (c : Crypto) (f : Fec) (e : Env) (as : List Act) (i : Nat) : Prop :=
  ∃ pre post t p rest, as = pre ++ .task i :: post ∧
    (run c f e (State.init c f) pre).shared.transfers[i]? = some t ∧ t.phase = .running ∧ t.chan = p :: rest ∧
    ((∃ d, history c f e (pre ++ [.task i]) = history c f e pre ++ [.delivered t.bid d]) ∨ Spoils c f e t p)

/-! ### Proof -/

/-- The transfer can be reached by nobody and its channel is empty. -/
def Gone (s : State c f) (i : Nat) (t : Transfer c f) : Prop :=
  t.chan = [] ∧ s.shared.owned.get t.bid ≠ some (.incoming i) ∧ ∀ th ∈ s.threads, th.holds ≠ some i

def EInv (e : Env) (as : List Act) (s : State c f) : Prop :=
  ∀ i t, s.shared.transfers[i]? = some t → t.phase ≠ .running → Decided c f e as i ∨ Gone s i t

theorem Decided.more {e : Env} {as : List Act} {i : Nat} (h : Decided c f e as i) (a : Act) :
    Decided c f e (as ++ [a]) i := by
  obtain ⟨pre, post, t, p, rest, h1, h2⟩ := h
  exact ⟨pre, post ++ [a], t, p, rest, by rw [h1]; simp, h2⟩

/-- What a step does to the transfers that are not running any more. -/
def Settles (s s' : State c f) (i : Nat) (t' : Transfer c f) : Prop :=
  t'.phase = .running ∨ (∃ t, s.shared.transfers[i]? = some t ∧ t.phase ≠ .running ∧ (Gone s i t → Gone s' i t')) ∨
  Gone s' i t'

theorem EInv.settle {e : Env} {as : List Act} {s s' : State c f} (h : EInv e as s) (a : Act)
    (hs : ∀ i t', s'.shared.transfers[i]? = some t' → Decided c f e (as ++ [a]) i ∨ Settles s s' i t') :
    EInv e (as ++ [a]) s' := by
  intro i t' ht' hp
  rcases hs i t' ht' with hd | h1 | ⟨t, h1, h2, h3⟩ | h1
  · exact .inl hd
  · exact absurd h1 hp
  · rcases h i t h1 h2 with hd | hg
    · exact .inl (hd.more a)
    · exact .inr (h3 hg)
  · exact .inr h1

/-- Nothing changes that matters. -/
theorem settles_same {s s' : State c f} (ht : s'.shared.transfers = s.shared.transfers)
    (ho : ∀ bid i, s'.shared.owned.get bid = some (.incoming i) → s.shared.owned.get bid = some (.incoming i))
    (hh : ∀ th ∈ s'.threads, ∀ i, th.holds = some i → ∃ x ∈ s.threads, x.holds = some i) {i : Nat} {t' : Transfer c f}
    (h : s'.shared.transfers[i]? = some t') : Settles s s' i t' := by
  rw [ht] at h
  by_cases hp : t'.phase = .running
  · exact .inl hp
  · refine .inr (.inl ⟨t', h, hp, fun hg => ⟨hg.1, fun hc => hg.2.1 (ho _ _ hc), ?_⟩⟩)
    intro th hth hc
    obtain ⟨x, hx, hc'⟩ := hh th hth i hc
    exact hg.2.2 x hx hc'

/-- One transfer that a task holds changes, but not whether it is running. -/
theorem settles_held {s s' : State c f} {j : Nat} {u u' : Transfer c f} (hu : s.shared.transfers[j]? = some u)
    (ht : s'.shared.transfers = s.shared.transfers.set j u') (hp : u'.phase = u.phase)
    (ho : s'.shared.owned = s.shared.owned) (hj : ∃ x ∈ s.threads, x.holds = some j)
    (hh : ∀ th ∈ s'.threads, ∀ i, th.holds = some i → ∃ x ∈ s.threads, x.holds = some i) {i : Nat} {t' : Transfer c f}
    (h : s'.shared.transfers[i]? = some t') : Settles s s' i t' := by
  rw [ht, getElem?_set_some hu] at h
  split at h
  · next hij =>
    subst hij
    cases h
    by_cases hr : u'.phase = .running
    · exact .inl hr
    · refine .inr (.inl ⟨u, hu, by rw [← hp]; exact hr, fun hg => ?_⟩)
      obtain ⟨x, hx, hc⟩ := hj
      exact absurd hc (hg.2.2 x hx)
  · by_cases hr : t'.phase = .running
    · exact .inl hr
    · refine .inr (.inl ⟨t', h, hr, fun hg => ⟨hg.1, by rw [ho]; exact hg.2.1, ?_⟩⟩)
      intro th hth hc
      obtain ⟨x, hx, hc'⟩ := hh th hth i hc
      exact hg.2.2 x hx hc'

theorem holds_set {s : State c f} {k : Nat} {th th' : Thread c} (hk : s.threads[k]? = some th)
    (h : ∀ i, th'.holds = some i → th.holds = some i) :
    ∀ x ∈ s.threads.set k th', ∀ i, x.holds = some i → ∃ y ∈ s.threads, y.holds = some i := by
  intro x hx i hi
  rcases mem_set hx with hx | rfl
  · exact ⟨x, hx, hi⟩
  · exact ⟨th, List.mem_of_getElem? hk, h i hi⟩

theorem holds_done {th : Thread c} : ∀ i, (Thread.done : Thread c).holds = some i → th.holds = some i :=
  fun _ h => by cases h

theorem get_put_other {m : AMap Bytes Owned} {b : Bytes} (bid : Bytes) (i : Nat)
    (h : (m.put b .other).get bid = some (.incoming i)) : m.get bid = some (.incoming i) := by
  rw [AMap.get_put] at h
  split at h
  · cases h
  · exact h

theorem thread_settles {e : Env} {as : List Act} {s : State c f} (hc : CInv e as s) {k : Nat} {th : Thread c}
    (hk : s.threads[k]? = some th) {i : Nat} {t' : Transfer c f}
    (h : (step c f e s (.thread k)).shared.transfers[i]? = some t') : Settles s (step c f e s (.thread k)) i t' := by
  have hmem := List.mem_of_getElem? hk
  have same : ∀ (sh : Overlay.State c f) (th' : Thread c) (evs : List Event),
      threadStep c f e s.shared th = (sh, th', evs) → sh.transfers = s.shared.transfers →
      (∀ bid i, sh.owned.get bid = some (.incoming i) → s.shared.owned.get bid = some (.incoming i)) →
      (∀ i, th'.holds = some i → th.holds = some i) → Settles s (step c f e s (.thread k)) i t' := by
    intro sh th' evs he ht ho hh
    have hs : step c f e s (.thread k) = { shared := sh, threads := s.threads.set k th', log := s.log ++ evs } := by
      simp only [step, hk, he]
    rw [hs] at h ⊢
    exact settles_same ht ho (holds_set hk hh) h
  have held : ∀ (sh : Overlay.State c f) (th' : Thread c) (evs : List Event) (j : Nat) (u u' : Transfer c f),
      threadStep c f e s.shared th = (sh, th', evs) → s.shared.transfers[j]? = some u →
      sh.transfers = s.shared.transfers.set j u' → u'.phase = u.phase → sh.owned = s.shared.owned →
      th.holds = some j → (∀ i, th'.holds = some i → th.holds = some i) →
      Settles s (step c f e s (.thread k)) i t' := by
    intro sh th' evs j u u' he hu ht hp ho hj hh
    have hs : step c f e s (.thread k) = { shared := sh, threads := s.threads.set k th', log := s.log ++ evs } := by
      simp only [step, hk, he]
    rw [hs] at h ⊢
    exact settles_held hu ht hp ho ⟨th, hmem, hj⟩ (holds_set hk hh) h
  cases th with
  | ordinary now b =>
    cases hch : checkOrdinary c e now b with
    | outdated => exact same s.shared .done [] (by simp only [threadStep, hch]) rfl (fun _ _ h => h) holds_done
    | failed => exact same s.shared .done [.failed] (by simp only [threadStep, hch]) rfl (fun _ _ h => h) holds_done
    | ok bid data source =>
      cases hg : s.shared.owned.get bid with
      | some o => exact same s.shared .done [] (by simp only [threadStep, hch, hg]) rfl (fun _ _ h => h) holds_done
      | none =>
        exact same { s.shared with owned := s.shared.owned.put bid .other } (.created bid data source) []
          (by simp only [threadStep, hch, hg]) rfl get_put_other (fun _ h => by cases h)
  | created bid data source => exact same s.shared (.pushed bid) _ rfl rfl (fun _ _ h => h) (fun _ h => by cases h)
  | pushed bid => exact same s.shared (.cleaning bid) _ rfl rfl (fun _ _ h => h) (fun _ h => by cases h)
  | cleaning bid => exact same (s.shared.spawnGc e bid) .done [] rfl rfl (fun _ _ h => h) holds_done
  | own bid =>
    cases hg : s.shared.owned.get bid with
    | some o => exact same s.shared .done [] (by simp only [threadStep, hg]) rfl (fun _ _ h => h) holds_done
    | none =>
      exact same { s.shared with owned := s.shared.owned.put bid .other } (.cleaning bid) []
        (by simp only [threadStep, hg]) rfl get_put_other (fun _ h => by cases h)
  | fec now b =>
    cases ho : isOutdated e b.date now with
    | none => exact same s.shared .done [.failed] (by simp only [threadStep, ho]) rfl (fun _ _ h => h) holds_done
    | some old =>
      cases old with
      | true => exact same s.shared .done [] (by simp only [threadStep, ho]) rfl (fun _ _ h => h) holds_done
      | false =>
        cases hf : Receiver.fullId c b.src with
        | none => exact same s.shared .done [.failed] (by simp only [threadStep, ho, hf]) rfl (fun _ _ h => h) holds_done
        | some pub =>
          by_cases hl : b.signature.length = 64
          · cases hg : s.shared.owned.get b.dataHash with
            | some o =>
              cases o with
              | other =>
                exact same s.shared .done [] (by simp [threadStep, ho, hf, hl, hg]) rfl (fun _ _ h => h) holds_done
              | incoming j =>
                -- the task gets hold of a transfer that the table has
                have he : threadStep c f e s.shared (.fec now b) = (s.shared, .refresh j pub b, []) := by
                  simp [threadStep, ho, hf, hl, hg]
                have hs : step c f e s (.thread k) =
                    { shared := s.shared, threads := s.threads.set k (.refresh j pub b), log := s.log ++ [] } := by
                  simp only [step, hk, he]
                rw [hs] at h ⊢
                by_cases hp : t'.phase = .running
                · exact .inl hp
                · refine .inr (.inl ⟨t', h, hp, fun hgo => ⟨hgo.1, hgo.2.1, ?_⟩⟩)
                  intro x hx hc'
                  rcases mem_set hx with hx | rfl
                  · exact hgo.2.2 x hx hc'
                  · simp only [Thread.holds, Option.some.injEq] at hc'
                    subst hc'
                    obtain ⟨t, h1, h2⟩ := hc.base.entry _ _ hg
                    simp only [h1, Option.some.injEq] at h
                    subst h
                    exact hgo.2.1 (by rw [h2]; exact hg)
            | none =>
              have he : threadStep c f e s.shared (.fec now b) =
                  (newTransfer c f e s.shared b (Node.shortId c pub), .refresh s.shared.transfers.length pub b, []) := by
                simp [threadStep, ho, hf, hl, hg]
              have hs : step c f e s (.thread k) =
                  { shared := newTransfer c f e s.shared b (Node.shortId c pub),
                    threads := s.threads.set k (.refresh s.shared.transfers.length pub b), log := s.log ++ [] } := by
                simp only [step, hk, he]
              rw [hs] at h ⊢
              simp only [newTransfer] at h
              by_cases hi : i < s.shared.transfers.length
              · rw [List.getElem?_append_left hi] at h
                by_cases hp : t'.phase = .running
                · exact .inl hp
                · refine .inr (.inl ⟨t', h, hp, fun hgo => ⟨hgo.1, ?_, ?_⟩⟩)
                  · simp only [newTransfer]
                    rw [AMap.get_put]
                    split
                    · intro hx
                      simp only [Option.some.injEq, Owned.incoming.injEq] at hx
                      omega
                    · exact hgo.2.1
                  · intro x hx hc'
                    rcases mem_set hx with hx | rfl
                    · exact hgo.2.2 x hx hc'
                    · simp only [Thread.holds, Option.some.injEq] at hc'
                      omega
              · rw [List.getElem?_append_right (Nat.le_of_not_lt hi)] at h
                have : i - s.shared.transfers.length = 0 := by
                  by_contra hne
                  rw [List.getElem?_eq_none (by simp; omega)] at h
                  cases h
                rw [this] at h
                simp only [List.getElem?_cons_zero, Option.some.injEq] at h
                subst h
                exact .inl rfl
          · exact same s.shared .done [.failed] (by simp [threadStep, ho, hf, hl]) rfl (fun _ _ h => h) holds_done
  | refresh j pub b =>
    cases hu : s.shared.transfers[j]? with
    | none => exact same s.shared .done [] (by simp only [threadStep, hu]) rfl (fun _ _ h => h) holds_done
    | some u =>
      have hx : ∀ th', (if u.source ≠ Node.shortId c pub then Thread.done else .deliver j pub b) = th' →
          threadStep c f e s.shared (.refresh j pub b) =
            ({ s.shared with
                transfers := s.shared.transfers.set j { u with updatedAt := (s.shared.clock - u.startedAt) / 1000 } },
              th', []) := by
        intro th' hth'
        subst hth'
        simp only [threadStep, hu]
        split <;> rfl
      by_cases hsrc : u.source = Node.shortId c pub
      · exact held _ (.deliver j pub b) [] j u _ (hx _ (by simp [hsrc])) hu rfl rfl rfl rfl (fun _ h => h)
      · exact held _ .done [] j u _ (hx _ (by simp [hsrc])) hu rfl rfl rfl rfl holds_done
  | deliver j pub b =>
    cases hu : s.shared.transfers[j]? with
    | none => exact same s.shared .done [] (by simp only [threadStep, hu]) rfl (fun _ _ h => h) holds_done
    | some u =>
      cases hd : PacketsHistory.deliver u.hist b.seqno with
      | mk hst fresh =>
        refine held { s.shared with transfers := s.shared.transfers.set j { u with hist := hst } }
          (if fresh then .load j pub b else .done) [] j u { u with hist := hst }
          (by simp only [threadStep, hu, hd]) hu rfl rfl rfl rfl ?_
        intro i hi
        cases fresh
        · cases hi
        · exact hi
  | load j pub b =>
    cases hu : s.shared.transfers[j]? with
    | none => exact same s.shared .done [] (by simp only [threadStep, hu]) rfl (fun _ _ h => h) holds_done
    | some u =>
      refine same s.shared (if u.completed then .forward j b else .send j pub b) []
        (by simp only [threadStep, hu]) rfl (fun _ _ h => h) ?_
      intro i hi
      split at hi <;> exact hi
  | send j pub b =>
    cases hu : s.shared.transfers[j]? with
    | none => exact same s.shared .done [] (by simp only [threadStep, hu]) rfl (fun _ _ h => h) holds_done
    | some u =>
      by_cases hp : u.phase = .ended
      · exact same s.shared .done [.failed] (by simp only [threadStep, hu, if_pos hp]) rfl (fun _ _ h => h) holds_done
      · exact held { s.shared with transfers := s.shared.transfers.set j { u with chan := u.chan ++ [(pub, b)] } }
          (.forward j b) [] j u _ (by simp only [threadStep, hu, if_neg hp]) hu rfl rfl rfl rfl (fun _ h => h)
  | forward j b => exact same s.shared .done _ rfl rfl (fun _ _ h => h) holds_done
  | done => exact same s.shared .done [] rfl rfl (fun _ _ h => h) holds_done

theorem mark_settles {s : State c f} (j : Nat) {i : Nat} {t' : Transfer c f}
    (h : (markStep c f s.shared j).transfers[i]? = some t') :
    Settles s { s with shared := markStep c f s.shared j } i t' := by
  -- neither channel nor identity change, nor does a running transfer stop
  have key : (markStep c f s.shared j).owned = s.shared.owned ∧
      ∃ t, s.shared.transfers[i]? = some t ∧ t'.bid = t.bid ∧ t'.chan = t.chan ∧
        (t.phase = .running → t'.phase = .running) := by
    unfold markStep at h ⊢
    cases hu : s.shared.transfers[j]? with
    | none => simp only [hu] at h ⊢; exact ⟨trivial, t', h, rfl, rfl, id⟩
    | some u =>
      simp only [hu] at h ⊢
      by_cases hp : u.phase = .leaving
      · simp only [hp, ne_eq, not_true_eq_false, if_false] at h ⊢
        have h1 : ∀ (x : Transfer c f), (s.shared.transfers.set j { u with phase := .ended })[i]? = some x →
            ∃ t, s.shared.transfers[i]? = some t ∧ x.bid = t.bid ∧ x.chan = t.chan ∧
              (t.phase = .running → x.phase = .running) := by
          intro x hx
          rw [getElem?_set_some hu] at hx
          split at hx
          · next hij =>
            subst hij; cases hx
            exact ⟨u, hu, rfl, rfl, fun hr => by rw [hp] at hr; cases hr⟩
          · exact ⟨x, hx, rfl, rfl, id⟩
        split at h
        · split at h
          · next v hv =>
            refine ⟨rfl, ?_⟩
            simp only at h
            rw [getElem?_set_some hv] at h
            split at h
            · next hij =>
              subst hij; cases h
              obtain ⟨t, a1, a2, a3, a4⟩ := h1 v hv
              exact ⟨t, a1, a2, a3, a4⟩
            · exact h1 t' h
          · exact ⟨rfl, h1 t' h⟩
        · exact ⟨rfl, h1 t' h⟩
      · simp only [ne_eq, hp, not_false_eq_true, if_true] at h ⊢
        exact ⟨trivial, t', h, rfl, rfl, id⟩
  obtain ⟨ho, t, h1, h2, h3, h4⟩ := key
  by_cases hp : t.phase = .running
  · exact .inl (h4 hp)
  · refine .inr (.inl ⟨t, h1, hp, fun hg => ⟨h3.trans hg.1, ?_, hg.2.2⟩⟩)
    simp only [ho, h2]
    exact hg.2.1

/-- A packet that is not simply taken in ends the transfer with a result or spoils it. -/
theorem processFec_decides {e : Env} {t : Transfer c f} {pub : c.Pub} {b : FecPart} (h1 : b.dataHash = t.bid)
    (h2 : Node.shortId c pub = t.source) (h : (processFec c f e.z t.dec pub b).2 = .failed) :
    Spoils c f e t (pub, b) := by
  unfold processFec at h
  rw [fecText_eq, h2] at h
  by_cases hv : Storage.verifySig c pub (fecText c.sha
      (if b.flags % 2 = 0 then t.source else List.replicate 32 0) b) b.signature = true
  · rw [if_pos hv] at h
    right
    cases hd : f.decode t.dec b.seqno b.data with
    | mk dec' o =>
      cases o with
      | none => simp only [hd] at h; cases h
      | some r =>
        refine ⟨r, rfl, ?_⟩
        simp only [hd] at h
        by_cases hl : r.length = b.dataSize
        · right
          simp only [hl, ne_eq, not_true_eq_false, if_false] at h
          rw [← h1]
          cases hz : decompress e.z r with
          | none =>
            simp only [hz] at h
            refine ⟨?_, fun d hd => by cases hd⟩
            intro hs
            rw [if_pos hs] at h; cases h
          | some d =>
            simp only [hz] at h
            by_cases hsd : c.sha d = b.dataHash
            · rw [if_pos hsd] at h; cases h
            · rw [if_neg hsd] at h
              refine ⟨?_, fun d' hd' => by cases hd'; exact hsd⟩
              intro hs
              simp only [if_pos hs] at h
              cases h
        · exact .inl hl
  · left
    rintro ⟨_, _, h3, h4⟩
    apply hv
    simp only [Storage.verifySig, Bool.and_eq_true, decide_eq_true_eq]
    exact ⟨h3, h4⟩

theorem run_snoc (e : Env) (as : List Act) (a : Act) :
    run c f e (State.init c f) (as ++ [a]) = step c f e (run c f e (State.init c f) as) a := by
  unfold run; rw [List.foldl_append]; rfl

theorem task_settles {e : Env} {as : List Act} {s : State c f} (hs : s = run c f e (State.init c f) as)
    (hc : CInv e as s) (j : Nat) {i : Nat} {t' : Transfer c f}
    (h : (receiverStep c f e s j).shared.transfers[i]? = some t') :
    Decided c f e (as ++ [.task j]) i ∨ Settles s (receiverStep c f e s j) i t' := by
  have idle : receiverStep c f e s j = s → Decided c f e (as ++ [.task j]) i ∨ Settles s (receiverStep c f e s j) i t' := by
    intro hi
    rw [hi] at h ⊢
    exact .inr (settles_same rfl (fun _ _ h => h) (fun th hth i hi => ⟨th, hth, hi⟩) h)
  cases hu : s.shared.transfers[j]? with
  | none => exact idle (by unfold receiverStep; simp only [hu])
  | some u =>
    by_cases hheld : u.chan.isEmpty ∧ s.threads.any (fun th => th.holds == some j)
    · exact idle (by unfold receiverStep; simp only [hu, if_pos hheld])
    · have hrec : ∀ (sh : Overlay.State c f) (out : Out), taskStep c f e s.shared j = (sh, out) →
          receiverStep c f e s j =
            { s with shared := sh, log := s.log ++ (out.delivered.map (Event.delivered u.bid)).toList } := by
        intro sh out hts
        unfold receiverStep
        simp only [hu, if_neg hheld, hts]
      by_cases hr : u.phase = .running
      · cases hch : u.chan with
        | nil =>
          by_cases ho : s.shared.owned.get u.bid = some (.incoming j)
          · apply idle
            rw [hrec s.shared {} (by unfold taskStep; simp [hu, hr, hch, ho])]
            simp
          · have he : receiverStep c f e s j =
                { s with shared := { s.shared with transfers := s.shared.transfers.set j { u with phase := .leaving } },
                         log := s.log ++ [] } := by
              exact hrec _ {} (by unfold taskStep; simp [hu, hr, hch, ho])
            rw [he] at h ⊢
            right
            simp only at h
            rw [getElem?_set_some hu] at h
            split at h
            · next hij =>
              subst hij; cases h
              refine .inr (.inr ⟨hch, ho, ?_⟩)
              intro th hth hc'
              apply hheld
              refine ⟨by simp [hch], ?_⟩
              rw [List.any_eq_true]
              exact ⟨th, hth, by simp [hc']⟩
            · by_cases hp : t'.phase = .running
              · exact .inl hp
              · exact .inr (.inl ⟨t', h, hp, fun hg => hg⟩)
        | cons p rest =>
          obtain ⟨pub, b⟩ := p
          obtain ⟨e1, e2, _⟩ := (hc.trs u (List.mem_of_getElem? hu)).chan (pub, b) (by rw [hch]; exact List.mem_cons_self)
          have other : ∀ (u' : Transfer c f) (log : List Event),
              receiverStep c f e s j = { s with shared := { s.shared with transfers := s.shared.transfers.set j u' },
                                                log := log } → i ≠ j → Settles s (receiverStep c f e s j) i t' := by
            intro u' log he hij
            rw [he] at h ⊢
            simp only at h
            rw [getElem?_set_some hu, if_neg hij] at h
            by_cases hp : t'.phase = .running
            · exact .inl hp
            · exact .inr (.inl ⟨t', h, hp, fun hg => hg⟩)
          cases hpf : processFec c f e.z u.dec pub b with
          | mk dec res =>
            cases res with
            | done data =>
              have he : receiverStep c f e s j =
                  { s with
                    shared := { s.shared with
                      transfers := s.shared.transfers.set j { u with dec := dec, chan := rest, packets := u.packets + 1, phase := .leaving } }
                    log := s.log ++ [.delivered u.bid ⟨u.packets + 1, data, u.source⟩] } := by
                exact hrec _ { delivered := some ⟨u.packets + 1, data, u.source⟩ } (by unfold taskStep; simp [hu, hr, hch, hpf])
              by_cases hij : i = j
              · left
                subst hij
                refine ⟨as, [], u, (pub, b), rest, rfl, by rw [← hs]; exact hu, hr, hch, .inl ⟨⟨u.packets + 1, data, u.source⟩, ?_⟩⟩
                unfold history
                rw [run_snoc, ← hs]
                show (receiverStep c f e s i).log = _
                rw [he]
              · exact .inr (other _ _ he hij)
            | more =>
              have he : receiverStep c f e s j =
                  { s with
                    shared := { s.shared with
                      transfers := s.shared.transfers.set j { u with dec := dec, chan := rest, packets := u.packets + 1 } }
                    log := s.log ++ [] } := by
                exact hrec _ {} (by unfold taskStep; simp [hu, hr, hch, hpf])
              by_cases hij : i = j
              · right
                left
                subst hij
                rw [he] at h
                simp only at h
                rw [getElem?_set_some hu, if_pos rfl] at h
                cases h
                exact hr
              · exact .inr (other _ _ he hij)
            | failed =>
              have he : receiverStep c f e s j =
                  { s with
                    shared := { s.shared with
                      transfers := s.shared.transfers.set j { u with dec := dec, chan := rest, packets := u.packets + 1, phase := .leaving } }
                    log := s.log ++ [] } := by
                exact hrec _ {} (by unfold taskStep; simp [hu, hr, hch, hpf])
              by_cases hij : i = j
              · left
                subst hij
                exact ⟨as, [], u, (pub, b), rest, rfl, by rw [← hs]; exact hu, hr, hch,
                  .inr (processFec_decides e1 e2 (by rw [hpf]))⟩
              · exact .inr (other _ _ he hij)
      · apply idle
        rw [hrec s.shared {} (by unfold taskStep; simp [hu, hr])]
        simp

theorem EInv.step {e : Env} {as : List Act} {s : State c f} (hs : s = run c f e (State.init c f) as)
    (hc : CInv e as s) (h : EInv e as s) (a : Act) : EInv e (as ++ [a]) (step c f e s a) := by
  refine h.settle a ?_
  intro i t' ht'
  have spawn : ∀ th : Thread c, th.holds = none → Conc.step c f e s a = { s with threads := s.threads ++ [th] } →
      Settles s (Conc.step c f e s a) i t' := by
    intro th hth he
    rw [he] at ht' ⊢
    refine settles_same (s := s) (s' := { s with threads := s.threads ++ [th] }) rfl (fun _ _ h => h) ?_ ht'
    intro x hx j hj
    rcases List.mem_append.mp hx with hx | hx
    · exact ⟨x, hx, hj⟩
    · simp only [List.mem_singleton] at hx
      subst hx; rw [hth] at hj; cases hj
  have quiet : (Conc.step c f e s a).shared.transfers = s.shared.transfers →
      (∀ bid i, (Conc.step c f e s a).shared.owned.get bid = some (.incoming i) →
        s.shared.owned.get bid = some (.incoming i)) →
      (Conc.step c f e s a).threads = s.threads → Settles s (Conc.step c f e s a) i t' := by
    intro h1 h2 h3
    exact settles_same h1 h2 (by rw [h3]; exact fun th hth i hi => ⟨th, hth, hi⟩) ht'
  cases a with
  | ordinary now b => exact .inr (spawn _ rfl rfl)
  | fec now b => exact .inr (spawn _ rfl rfl)
  | own bid => exact .inr (spawn _ rfl rfl)
  | thread k =>
    cases hk : s.threads[k]? with
    | none =>
      have he : Conc.step c f e s (.thread k) = s := by simp only [Conc.step, hk]
      rw [he] at ht' ⊢
      exact .inr (settles_same rfl (fun _ _ h => h) (fun th hth i hi => ⟨th, hth, hi⟩) ht')
    | some th => exact .inr (thread_settles hc hk ht')
  | task j => exact task_settles hs hc j ht'
  | mark j => exact .inr (mark_settles j ht')
  | cleanup j =>
    refine .inr (quiet ?_ ?_ rfl) <;> simp only [Conc.step, Overlay.step, cleanupStep]
    · split
      · rfl
      · split
        · rfl
        · split <;> rfl
    · intro bid i hi
      split at hi
      · exact hi
      · split at hi
        · exact hi
        · split at hi <;> exact hi
  | tick ms => exact .inr (quiet rfl (fun _ _ h => h) rfl)
  | expire j =>
    refine .inr (quiet ?_ ?_ rfl) <;> simp only [Conc.step, Overlay.step]
    · split
      · rfl
      · split <;> rfl
    · intro bid i hi
      split at hi
      · exact hi
      · split at hi <;> exact hi
  | push j =>
    refine .inr (quiet ?_ ?_ rfl) <;> simp only [Conc.step, Overlay.step]
    · split <;> rfl
    · intro bid i hi
      split at hi <;> exact hi
  | gcCheck =>
    refine .inr (quiet ?_ ?_ rfl) <;> simp only [Conc.step, Overlay.step]
    · split <;> rfl
    · intro bid i hi
      split at hi <;> exact hi
  | gcPop =>
    refine .inr (quiet ?_ ?_ rfl) <;> simp only [Conc.step, Overlay.step]
    · split
      · split <;> rfl
      · rfl
    · intro bid i hi
      split at hi
      · split at hi
        · exact hi
        · simp only at hi
          rw [AMap.get_erase] at hi
          split at hi
          · cases hi
          · exact hi
      · exact hi
  | gcSub =>
    refine .inr (quiet ?_ ?_ rfl) <;> simp only [Conc.step, Overlay.step]
    · split <;> rfl
    · intro bid i hi
      split at hi <;> exact hi

theorem EInv.run (e : Env) (as : List Act) : EInv e as (run c f e (State.init c f) as) := by
  induction as using List.reverseRecOn with
  | nil => intro i t h; cases h
  | append_singleton as a ih =>
    rw [run_snoc]
    exact EInv.step rfl (CInv.run as (fun _ h => h) (CInv.init e as)) ih a

/-! ### Claims -/

/-- A packet that a task has in hand finds the channel closed only if the transfer had been decided. -/
theorem C142_closed (e : Env) (as : List Act) (k i : Nat) (pub : c.Pub) (b : FecPart)
    (hk : (run c f e (State.init c f) as).threads[k]? = some (.send i pub b))
    (hf : history c f e (as ++ [.thread k]) = history c f e as ++ [.failed]) : Decided c f e as i := by
  unfold history at hf
  rw [run_snoc] at hf
  cases ht : (run c f e (State.init c f) as).shared.transfers[i]? with
  | none =>
    simp [step, hk, threadStep, ht] at hf
  | some t =>
    by_cases hp : t.phase = .ended
    · rcases EInv.run e as i t ht (by rw [hp]; exact Phase.noConfusion) with hd | hg
      · exact hd
      · exact absurd rfl (hg.2.2 _ (List.mem_of_getElem? hk))
    · simp [step, hk, threadStep, ht, hp] at hf

/-- A packet in the channel of a transfer whose task is over was put there after the transfer had been decided, or
was left there when it was decided. -/
theorem C142_nothing_lost (e : Env) (as : List Act) (i : Nat) (t : Transfer c f)
    (ht : (run c f e (State.init c f) as).shared.transfers[i]? = some t) (hp : t.phase ≠ .running) (hc : t.chan ≠ []) :
    Decided c f e as i := by
  rcases EInv.run e as i t ht hp with hd | hg
  · exact hd
  · exact absurd hg.1 hc

/-- A transfer that the table still has, or that a task still holds, is over only if it has been decided. -/
theorem C142_alive (e : Env) (as : List Act) (i : Nat) (t : Transfer c f)
    (ht : (run c f e (State.init c f) as).shared.transfers[i]? = some t) (hp : t.phase ≠ .running)
    (hh : (run c f e (State.init c f) as).shared.owned.get t.bid = some (.incoming i) ∨
      ∃ th ∈ (run c f e (State.init c f) as).threads, th.holds = some i) : Decided c f e as i := by
  rcases EInv.run e as i t ht hp with hd | hg
  · exact hd
  · rcases hh with hh | ⟨th, h1, h2⟩
    · exact absurd hh hg.2.1
    · exact absurd h2 (hg.2.2 th h1)

/-! ### Examples -/

/-- Two packets of one broadcast handled at once: the first is all that is needed; the second is past the check of the
completed flag when the receiving task ends. -/
def lateFec : List Act :=
  [.fec 100 samplePart, .fec 100 { samplePart with seqno := 1 }, .thread 0, .thread 1, .thread 0, .thread 1, .thread 0,
    .thread 1, .thread 0, .thread 1, .thread 0, .task 0, .mark 0]

theorem lateFec_held : ∃ pub, (run Crypto.toy Fec.toy sampleEnv (State.init Crypto.toy Fec.toy) lateFec).threads[1]? =
    some (.send 0 pub { samplePart with seqno := 1 }) := by
  have h : (match (run Crypto.toy Fec.toy sampleEnv (State.init Crypto.toy Fec.toy) lateFec).threads[1]? with
      | some (Thread.send i _ b) => decide (i = 0 ∧ b = { samplePart with seqno := 1 })
      | _ => false) = true := by decide +kernel
  split at h
  · next i pub b hb =>
    simp only [decide_eq_true_eq] at h
    obtain ⟨rfl, rfl⟩ := h
    exact ⟨pub, hb⟩
  · cases h

-- C142_closed: the second packet finds the channel closed, and the broadcast has been delivered
example : Decided Crypto.toy Fec.toy sampleEnv lateFec 0 := by
  obtain ⟨pub, h⟩ := lateFec_held
  exact C142_closed sampleEnv lateFec 1 0 pub _ h (by decide +kernel)

-- C142_nothing_lost: the same with the packet sent while the receiving task is leaving
example : ∃ t, (run Crypto.toy Fec.toy sampleEnv (State.init Crypto.toy Fec.toy)
      (lateFec.dropLast ++ [.thread 1])).shared.transfers[0]? = some t ∧ t.phase ≠ .running ∧ t.chan ≠ [] ∧
    Decided Crypto.toy Fec.toy sampleEnv (lateFec.dropLast ++ [.thread 1]) 0 := by
  have h : (match (run Crypto.toy Fec.toy sampleEnv (State.init Crypto.toy Fec.toy)
      (lateFec.dropLast ++ [.thread 1])).shared.transfers[0]? with
      | some t => decide (t.phase ≠ .running) && !t.chan.isEmpty
      | none => false) = true := by decide +kernel
  split at h
  · next t ht =>
    simp only [Bool.and_eq_true, decide_eq_true_eq, Bool.not_eq_true', List.isEmpty_eq_false_iff] at h
    exact ⟨t, ht, h.1, h.2, C142_nothing_lost _ _ 0 t ht h.1 h.2⟩
  · cases h

-- C142_alive: the table still has the transfer
example : ∃ t, (run Crypto.toy Fec.toy sampleEnv (State.init Crypto.toy Fec.toy) lateFec).shared.transfers[0]? = some t ∧
    t.phase = .ended ∧ Decided Crypto.toy Fec.toy sampleEnv lateFec 0 := by
  have h : (match (run Crypto.toy Fec.toy sampleEnv (State.init Crypto.toy Fec.toy) lateFec).shared.transfers[0]? with
      | some t => decide (t.phase = .ended)
      | none => false) = true := by decide +kernel
  split at h
  · next t ht =>
    simp only [decide_eq_true_eq] at h
    obtain ⟨pub, hp⟩ := lateFec_held
    exact ⟨t, ht, h, C142_alive _ _ 0 t ht (by rw [h]; exact Phase.noConfusion)
      (.inr ⟨_, List.mem_of_getElem? hp, rfl⟩)⟩
  · cases h

end Verif.Overlay.Conc
