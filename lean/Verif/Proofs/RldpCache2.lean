import Verif.Proofs.RldpCache
import Verif.Proofs.RldpProto

/-!
# The table of RLDP transfers: what the handler is given
-/
namespace Verif.Rldp
open Verif.Tl
variable {f : Fec}

theorem readMessage_local : Local readMessage := by
  refine Local.bind Local.u32 fun id => ?_
  refine Local.ite (Local.bind Local.hash fun _ => Local.bind Local.bytes fun _ => Local.pure _) ?_
  refine Local.ite (Local.bind Local.hash fun _ => Local.bind Local.bytes fun _ => Local.pure _) ?_
  exact Local.ite (Local.bind Local.hash fun _ => Local.bind Local.u64 fun _ => Local.bind Local.u32 fun _ =>
    Local.bind Local.bytes fun _ => Local.pure _) Local.fail

/-- No proper beginning of a serialised message is taken for a query. -/
theorem fromData_prefix (m : Message) (h : m.wf) (k : Nat) (hk : k < (writeMessage m).length) :
    fromData ((writeMessage m).take k) = none := by
  cases hd : fromData ((writeMessage m).take k) with
  | none => rfl
  | some o =>
    obtain ⟨t, r, hr⟩ := (fromData_iff _ o).1 hd
    obtain ⟨w, hw, henc⟩ := readMessage_local _ _ _ hr
    have h1 := henc (r ++ (writeMessage m).drop k)
    rw [← List.append_assoc, ← hw, List.take_append_drop] at h1
    have h2 := message_encodes m h []
    rw [List.append_nil, h1] at h2
    have h3 := (Prod.mk.inj (Option.some.inj h2)).2
    have h4 := (List.append_eq_nil_iff.1 h3).2
    rw [List.drop_eq_nil_iff] at h4
    omega

/-- Invariant for one id whose messages all come from a sender of `data`. -/
structure HInv (data x : Bytes) (s : Cache f) : Prop where
  linkE : ∀ id k, s.entries.get id = some (.incoming k) → ∃ t, s.tasks[k]? = some t ∧ t.id = id
  linkC : ∀ c ∈ s.calls, ∀ k, c.pc = .send k → ∃ t, s.tasks[k]? = some t ∧ t.id = c.id
  msgs : ∀ c ∈ s.calls, c.id = x → ∃ p n, c.m = honestPart f data p n
  queue : ∀ (k : Nat) (t : Task f), s.tasks[k]? = some t → t.id = x →
    ∀ m ∈ t.queue, ∃ p n, m = honestPart f data p n
  rcv : ∀ (k : Nat) (t : Task f), s.tasks[k]? = some t → t.id = x → ∃ ns, Honest data t.rcv ns
  runs : ∀ e ∈ s.runs, e.1 = x → fromData data = some e.2.2

theorem getElem?_set_cases {α : Type} {l : List α} {k i : Nat} {t u : α} (h : (l.set k t)[i]? = some u) :
    (i = k ∧ u = t) ∨ l[i]? = some u := by
  rw [List.getElem?_set] at h
  by_cases e : k = i
  · rw [if_pos e] at h
    split at h
    · exact .inl ⟨e.symm, (Option.some.inj h).symm⟩
    · cases h
  · rw [if_neg e] at h
    exact .inr h

theorem getElem?_set_some {α : Type} {l : List α} {k i : Nat} {t t' u : α} (hk : l[k]? = some t)
    (h : l[i]? = some u) : (l.set k t')[i]? = some (if i = k then t' else u) := by
  rw [List.getElem?_set]
  by_cases e : k = i
  · rw [if_pos e, if_pos e.symm, if_pos (List.getElem?_eq_some_iff.1 hk).1]
  · rw [if_neg e, if_neg (fun e' => e e'.symm)]
    exact h

/-- One task changes. -/
theorem HInv.update {data x : Bytes} {s s' : Cache f} (h : HInv data x s) {k : Nat}
    {t t' : Task f} (hk : s.tasks[k]? = some t) (hid : t'.id = t.id)
    (ht : s'.tasks = s.tasks.set k t')
    (hi : ∀ id k, s'.entries.get id = some (.incoming k) → s.entries.get id = some (.incoming k))
    (hc : ∀ c ∈ s'.calls, CallFrom s c)
    (hq : t.id = x → ∀ m ∈ t'.queue, ∃ p n, m = honestPart f data p n)
    (hrcv : t.id = x → ∃ ns, Honest data t'.rcv ns)
    (hr : ∀ e ∈ s'.runs, e.1 = x → fromData data = some e.2.2) : HInv data x s' := by
  have keep : ∀ (i : Nat) (id : Bytes), (∃ u, s.tasks[i]? = some u ∧ u.id = id) →
      ∃ u, s'.tasks[i]? = some u ∧ u.id = id := by
    rintro i id ⟨u, hu, rfl⟩
    refine ⟨_, ht ▸ getElem?_set_some hk hu, ?_⟩
    split
    · rename_i e
      subst e
      rw [hk] at hu
      cases hu
      exact hid
    · rfl
  refine ⟨?_, ?_, ?_, ?_, ?_, hr⟩
  · exact fun id j hj => keep j id (h.linkE id j (hi id j hj))
  · intro c hcin j hj
    obtain ⟨c0, h1, h2, _, h4⟩ := hc c hcin
    rw [h2]
    exact keep j _ (h.linkC c0 h1 j (h4 j hj))
  · intro c hcin hcx
    obtain ⟨c0, h1, h2, h3, _⟩ := hc c hcin
    rw [h3]
    exact h.msgs c0 h1 (h2.symm.trans hcx)
  · intro i u hi hu
    rw [ht] at hi
    rcases getElem?_set_cases hi with ⟨_, rfl⟩ | hi
    · exact hq (hid.symm.trans hu)
    · exact h.queue i u hi hu
  · intro i u hi hu
    rw [ht] at hi
    rcases getElem?_set_cases hi with ⟨_, rfl⟩ | hi
    · exact hrcv (hid.symm.trans hu)
    · exact h.rcv i u hi hu

theorem HInv.step (hf : f.Lawful) {data x : Bytes} {maxSize : Nat} (interval : Nat)
    (hm : data.length ≤ maxSize) (hd : data ≠ [])
    (hpre : ∀ k, k < data.length → fromData (data.take k) = none)
    {s : Cache f} (h : HInv data x s) (a : CAct)
    (ha : ∀ m, a = .arrive x m → ∃ p n, m = honestPart f data p n) :
    HInv data x (s.step maxSize interval a) := by
  have he := cstep_eff maxSize interval s a
  generalize s.step maxSize interval a = s' at he ⊢
  have refl : ∀ c ∈ s.calls, CallFrom s c := fun c hc => ⟨c, hc, rfl, rfl, fun _ h => h⟩
  cases he with
  | calls a s' he ht hr hn hc =>
    refine ⟨he ▸ ht ▸ h.linkE, ?_, ?_, ht ▸ h.queue, ht ▸ h.rcv, hr ▸ h.runs⟩
    · intro c hin k hk
      rw [ht]
      rcases hc c hin with ⟨c0, h1, h2, _, h4⟩ | ⟨_, h1⟩
      · rw [h2]; exact h.linkC c0 h1 k (h4 k hk)
      · rw [h1] at hk; cases hk
    · intro c hin hcx
      rcases hc c hin with ⟨c0, h1, h2, h3, _⟩ | ⟨h1, _⟩
      · rw [h3]; exact h.msgs c0 h1 (h2.symm.trans hcx)
      · exact ha c.m (hcx ▸ h1)
  | create c call s' hc h0 he ht hr hn hcs =>
    have keep : ∀ (i : Nat) (id : Bytes), (∃ u, s.tasks[i]? = some u ∧ u.id = id) →
        ∃ u, s'.tasks[i]? = some u ∧ u.id = id := by
      rintro i id ⟨u, hu, rfl⟩
      refine ⟨u, ?_, rfl⟩
      rw [ht, List.getElem?_append_left (List.getElem?_eq_some_iff.1 hu).1]
      exact hu
    have new : s'.tasks[s.tasks.length]? =
        some ⟨call.id, Receiving.new f maxSize, [], .receiving, .idle⟩ := by
      rw [ht]; simp
    have get' : ∀ (i : Nat) (u : Task f), s'.tasks[i]? = some u → s.tasks[i]? = some u ∨
        u = ⟨call.id, Receiving.new f maxSize, [], .receiving, .idle⟩ := by
      intro i u hi
      have hmem : u ∈ s.tasks ++ [⟨call.id, Receiving.new f maxSize, [], .receiving, .idle⟩] :=
        ht ▸ List.mem_of_getElem? hi
      by_cases hlt : i < s.tasks.length
      · rw [ht, List.getElem?_append_left hlt] at hi
        exact .inl hi
      · rw [ht, List.getElem?_append_right (by omega)] at hi
        exact .inr (List.mem_singleton.1 (List.mem_of_getElem? hi))
    refine ⟨?_, ?_, ?_, ?_, ?_, hr ▸ h.runs⟩
    · intro id k hk
      rw [he, AMap.get_put] at hk
      split at hk
      · rename_i e
        cases hk
        exact ⟨_, new, e.symm⟩
      · exact keep k id (h.linkE id k hk)
    · intro c hin k hk
      rcases hcs c hin with ⟨c0, h1, h2, _, h4⟩ | ⟨h1, _, h3⟩
      · rw [h2]; exact keep k _ (h.linkC c0 h1 k (h4 k hk))
      · rw [h3] at hk
        cases hk
        exact ⟨_, new, h1.symm⟩
    · intro c' hin hcx
      rcases hcs c' hin with ⟨c0, h1, h2, h3, _⟩ | ⟨h1, h2, _⟩
      · rw [h3]; exact h.msgs c0 h1 (h2.symm.trans hcx)
      · rw [h2]; exact h.msgs call (List.mem_of_getElem? hc) (h1.symm.trans hcx)
    · intro i u hi hu m hmem
      rcases get' i u hi with hi | rfl
      · exact h.queue i u hi hu m hmem
      · exact absurd hmem List.not_mem_nil
    · intro i u hi hu
      rcases get' i u hi with hi | rfl
      · exact h.rcv i u hi hu
      · exact ⟨[], honest_new f hd hm⟩
  | deliver a c k call t s' hc hk hp hid he ht hr hn hcs =>
    have hcid : t.id = call.id := by
      rcases hid with hid | hid
      · obtain ⟨u, h1, h2⟩ := h.linkE _ _ hid
        rw [hk] at h1; cases h1; exact h2
      · obtain ⟨u, h1, h2⟩ := h.linkC _ (List.mem_of_getElem? hc) _ hid
        rw [hk] at h1; cases h1; exact h2
    refine h.update (t' := { t with queue := t.queue ++ [call.m] }) hk rfl ht (he ▸ fun _ _ h => h) hcs ?_
      (h.rcv k t hk) (hr ▸ h.runs)
    intro htx m hmem
    rcases List.mem_append.1 hmem with hmem | hmem
    · exact h.queue k t hk htx m hmem
    · rw [List.mem_singleton.1 hmem]
      exact h.msgs call (List.mem_of_getElem? hc) (hcid.symm.trans htx)
  | take k t m q p s' hk hq hp hp' he ht hr hn hcs =>
    refine h.update (t' := { t with rcv := (t.rcv.step m).1, queue := q, phase := p }) hk rfl ht
      (he ▸ fun _ _ h => h) (hcs ▸ refl) ?_ ?_ (hr ▸ h.runs)
    · intro htx m' hmem
      exact h.queue k t hk htx m' (hq ▸ List.mem_cons_of_mem _ hmem)
    · intro htx
      obtain ⟨p, n, rfl⟩ := h.queue k t hk htx m (hq ▸ List.mem_cons_self)
      obtain ⟨ns, hns⟩ := h.rcv k t hk htx
      have := step_honest hf hns p n
      cases this with
      | same h1 => exact ⟨_, h1⟩
      | more h1 => exact ⟨_, h1⟩
      | next h1 => exact ⟨_, h1⟩
      | last h1 => exact ⟨_, h1⟩
  | move a k t p tm s' hk hm he hi ht hr hn hcs =>
    exact h.update (t' := { t with phase := p, timer := tm }) hk rfl ht hi (hcs ▸ refl)
      (h.queue k t hk) (h.rcv k t hk) (hr ▸ h.runs)
  | run k b t p q s' hk h0 hp hq he hi ht hr hn hcs =>
    refine h.update (t' := { t with phase := p }) hk rfl ht hi (hcs ▸ refl)
      (h.queue k t hk) (h.rcv k t hk) ?_
    rw [hr]
    intro e hin hex
    rcases List.mem_append.1 hin with hin | hin
    · exact h.runs e hin hex
    · rw [List.mem_singleton] at hin
      subst hin
      obtain ⟨ns, hns⟩ := h.rcv k t hk hex
      cases hl : t.rcv.left with
      | true => rw [hns.left hl] at hq; exact hq
      | false =>
        rw [hns.got hl, hpre _ (hns.inside hl)] at hq
        cases hq

theorem HInv.init (data x : Bytes) : HInv data x (Cache.init f) := by
  refine ⟨?_, ?_, ?_, ?_, ?_, ?_⟩
  · intro id k h; cases h
  · exact fun c hc => absurd hc List.not_mem_nil
  · exact fun c hc => absurd hc List.not_mem_nil
  · intro i t hi; simp [Cache.init] at hi
  · intro i t hi; simp [Cache.init] at hi
  · exact fun c hc => absurd hc List.not_mem_nil

theorem HInv.run (hf : f.Lawful) {data x : Bytes} {maxSize : Nat} (interval : Nat)
    (hm : data.length ≤ maxSize) (hd : data ≠ [])
    (hpre : ∀ k, k < data.length → fromData (data.take k) = none) (acts : List CAct)
    (ha : ∀ m, CAct.arrive x m ∈ acts → ∃ p n, m = honestPart f data p n) :
    ∀ {s : Cache f}, HInv data x s → HInv data x (s.run maxSize interval acts) := by
  induction acts with
  | nil => intro s h; exact h
  | cons a acts ih =>
    intro s h
    exact ih (fun m hm => ha m (List.mem_cons_of_mem _ hm))
      (h.step hf interval hm hd hpre a fun m e => ha m (e ▸ List.mem_cons_self))

/-! ### Removal of entries -/

/-- The answer is registered under the negated id and will be removed with the task. -/
def HasOut : TaskPhase → Prop
  | .sending => True
  | .answered o => o = true
  | .sleeping _ o => o = true
  | _ => False

/-- The task will still remove the entry of `id`. -/
def Owns (t : Task f) (id : Bytes) : Prop :=
  t.phase ≠ .over ∧ (id = t.id ∨ (id = negateId t.id ∧ HasOut t.phase))

/-- Sending answers succeeds, and the timer of a task has fired when its entries are removed. -/
def Orderly (s : Cache f) : CAct → Prop
  | .remove k => ∀ t, s.tasks[k]? = some t → t.timer = .fired
  | .sent _ ok => ok = true
  | _ => True

/-- All steps are. -/
def OrderlyRun (maxSize interval : Nat) : Cache f → List CAct → Prop
  | _, [] => True
  | s, a :: acts => Orderly s a ∧ OrderlyRun maxSize interval (s.step maxSize interval a) acts

structure OInv (s : Cache f) : Prop where
  over : ∀ (k : Nat) (t : Task f), s.tasks[k]? = some t → t.phase = .over → t.timer = .fired
  owned : ∀ id, s.entries.get id ≠ none → ∃ (k : Nat) (t : Task f), s.tasks[k]? = some t ∧ Owns t id

theorem OInv.update {s : Cache f} (h : OInv s) {k : Nat} {t : Task f} (t' : Task f) {e : AMap Bytes Entry}
    {cs : List Call} {n : Nat} {rs : List (Bytes × Nat × OwnedQuery)} (hk : s.tasks[k]? = some t)
    (he : ∀ id, e.get id ≠ none → s.entries.get id ≠ none ∨ Owns t' id)
    (ho : ∀ id, e.get id ≠ none → Owns t id → Owns t' id)
    (hov : t'.phase = .over → t'.timer = .fired) :
    OInv (⟨e, s.tasks.set k t', cs, n, rs⟩ : Cache f) := by
  have hnew : (s.tasks.set k t')[k]? = some t' := by
    rw [getElem?_set_some hk hk, if_pos rfl]
  constructor
  · intro i u hi hu
    rcases getElem?_set_cases hi with ⟨_, rfl⟩ | hi
    · exact hov hu
    · exact h.over i u hi hu
  · intro id hid
    rcases he id hid with h1 | h1
    · obtain ⟨i, u, hi, hu⟩ := h.owned id h1
      by_cases hik : i = k
      · subst hik
        rw [hk] at hi
        cases hi
        exact ⟨_, _, hnew, ho id hid hu⟩
      · refine ⟨i, u, ?_, hu⟩
        show (s.tasks.set k t')[i]? = some u
        rw [getElem?_set_some hk hi, if_neg hik]
    · exact ⟨_, _, hnew, h1⟩

theorem OInv.congr {s s' : Cache f} (h : OInv s) (he : s'.entries = s.entries) (ht : s'.tasks = s.tasks) :
    OInv s' := ⟨ht ▸ h.over, he ▸ ht ▸ h.owned⟩

theorem OInv.deliver {s : Cache f} (h : OInv s) (k : Nat) (m : Part) : OInv (s.deliver k m) := by
  unfold Cache.deliver
  cases hk : s.tasks[k]? with
  | none => exact h
  | some t =>
    simp only
    split
    · exact h.update _ hk (fun _ h => .inl h) (fun _ _ h => h) (h.over k t hk)
    · exact h

/-- A change of the phase that keeps what the task owns. -/
theorem Owns.phase {t : Task f} {id : Bytes} {p : TaskPhase} (h : Owns t id) (hp : p ≠ .over)
    (ho : HasOut t.phase → HasOut p) (r : Receiving f) (q : List Part) (tm : Timer) :
    Owns (⟨t.id, r, q, p, tm⟩ : Task f) id :=
  ⟨hp, h.2.imp (fun e => e) fun ⟨h1, h2⟩ => ⟨h1, ho h2⟩⟩

theorem OInv.step {s : Cache f} (h : OInv s) (maxSize interval : Nat) (a : CAct) (ha : Orderly s a) :
    OInv (s.step maxSize interval a) := by
  cases a with
  | arrive id m => exact h.congr rfl rfl
  | tick => exact h.congr rfl rfl
  | look c =>
    simp only [Cache.step]
    cases s.calls[c]? with
    | none => exact h
    | some call =>
      simp only
      split
      · split
        · exact (h.deliver _ call.m).congr rfl rfl
        · exact h.congr rfl rfl
        · exact h.congr rfl rfl
      · exact h
  | create c =>
    simp only [Cache.step]
    cases s.calls[c]? with
    | none => exact h
    | some call =>
      simp only
      split
      · split
        · constructor
          · intro i u hi hu
            have hi : (s.tasks ++ [⟨call.id, Receiving.new f maxSize, [], .receiving, .idle⟩])[i]? =
              some u := hi
            rw [List.getElem?_append] at hi
            split at hi
            · exact h.over i u hi hu
            · rw [List.mem_singleton.1 (List.mem_of_getElem? hi)] at hu
              cases hu
          · intro id hid
            have hid : (s.entries.put call.id (.incoming s.tasks.length)).get id ≠ none := hid
            rw [AMap.get_put] at hid
            split at hid
            · rename_i e
              refine ⟨s.tasks.length, ⟨call.id, Receiving.new f maxSize, [], .receiving, .idle⟩, ?_, ?_⟩
              · show (s.tasks ++ [_])[_]? = _
                simp
              · exact ⟨fun e => (by cases e), .inl e⟩
            · obtain ⟨i, u, hi, hu⟩ := h.owned id hid
              refine ⟨i, u, ?_, hu⟩
              show (s.tasks ++ [_])[_]? = _
              rw [List.getElem?_append_left (List.getElem?_eq_some_iff.1 hi).1]
              exact hi
        · exact h.congr rfl rfl
      · exact h
  | send c =>
    simp only [Cache.step]
    cases s.calls[c]? with
    | none => exact h
    | some call =>
      simp only
      split
      · exact (h.deliver _ call.m).congr rfl rfl
      · exact h
  | recv k =>
    simp only [Cache.step]
    cases hk : s.tasks[k]? with
    | none => exact h
    | some t =>
      simp only
      by_cases hp : t.phase = .receiving
      · rw [if_pos hp]
        have ho : ∀ p, HasOut t.phase → HasOut p := fun p e => by rw [hp] at e; exact e.elim
        split
        · refine h.update _ hk (fun _ h => .inl h) (fun _ _ h => h.phase ?_ (ho _) _ _ _) ?_
          · split <;> exact fun e => (by cases e)
          · intro e
            exact absurd e (by show ite _ _ _ ≠ _; split <;> exact fun e => (by cases e))
        · split
          · exact h
          · exact h.update _ hk (fun _ h => .inl h)
              (fun _ _ h => h.phase (fun e => by cases e) (ho _) _ _ _) (fun e => by cases e)
      · rw [if_neg hp]; exact h
  | finish k =>
    simp only [Cache.step]
    cases hk : s.tasks[k]? with
    | none => exact h
    | some t =>
      simp only
      by_cases hp : t.phase = .received
      · rw [if_pos hp]
        have ho : ∀ p, HasOut t.phase → HasOut p := fun p e => by rw [hp] at e; exact e.elim
        refine h.update _ hk ?_ (fun _ _ h => h.phase (fun e => by cases e) (ho _) _ _ _)
          (fun e => by cases e)
        intro id hid
        rw [AMap.get_put] at hid
        split at hid
        · rename_i e
          exact .inr ⟨fun e => (by cases e), .inl e⟩
        · exact .inl hid
      · rw [if_neg hp]; exact h
  | answer k b =>
    simp only [Cache.step]
    cases hk : s.tasks[k]? with
    | none => exact h
    | some t =>
      simp only
      by_cases hp : t.phase = .finished
      · rw [if_pos hp]
        have ho : ∀ p, HasOut t.phase → HasOut p := fun p e => by rw [hp] at e; exact e.elim
        split
        · exact h.update _ hk (fun _ h => .inl h)
            (fun _ _ h => h.phase (fun e => by cases e) (ho _) _ _ _) (fun e => by cases e)
        · split
          · refine h.update _ hk ?_ (fun _ _ h => h.phase (fun e => by cases e) (ho _) _ _ _)
              (fun e => by cases e)
            intro id hid
            rw [AMap.get_put] at hid
            split at hid
            · rename_i e
              exact .inr ⟨fun e => (by cases e), .inr ⟨e, trivial⟩⟩
            · exact .inl hid
          · exact h.update _ hk (fun _ h => .inl h)
              (fun _ _ h => h.phase (fun e => by cases e) (ho _) _ _ _) (fun e => by cases e)
      · rw [if_neg hp]; exact h
  | sent k ok =>
    simp only [Cache.step]
    have ha : ok = true := ha
    subst ha
    cases hk : s.tasks[k]? with
    | none => exact h
    | some t =>
      simp only
      split
      · exact h.update _ hk (fun _ h => .inl h)
          (fun _ _ h => h.phase (p := .answered true) (fun e => by cases e) (fun _ => rfl) _ _ _) (fun e => by cases e)
      · exact h
  | rest k =>
    simp only [Cache.step]
    cases hk : s.tasks[k]? with
    | none => exact h
    | some t =>
      simp only
      split
      · rename_i o hp
        exact h.update _ hk (fun _ h => .inl h)
          (fun _ _ h => h.phase (fun e => by cases e) (fun e => by rw [hp] at e; exact e) _ _ _)
          (fun e => by cases e)
      · exact h
  | remove k =>
    simp only [Cache.step]
    cases hk : s.tasks[k]? with
    | none => exact h
    | some t =>
      have hfired := ha t hk
      simp only
      split
      · rename_i till o hp
        split
        · refine h.update _ hk ?_ ?_ (fun _ => hfired)
          · intro id hid
            rw [AMap.get_erase] at hid
            split at hid
            · exact absurd rfl hid
            · cases o with
              | false => exact .inl hid
              | true =>
                simp only [if_true, AMap.get_erase] at hid
                split at hid
                · exact absurd rfl hid
                · exact .inl hid
          · intro id hid hown
            exfalso
            rw [AMap.get_erase] at hid
            split at hid
            · exact hid rfl
            · rename_i hne
              rcases hown.2 with e | ⟨e, hh⟩
              · exact hne e
              · rw [hp] at hh
                have hh : o = true := hh
                subst hh
                simp only [if_true, AMap.get_erase] at hid
                rw [if_pos e] at hid
                exact hid rfl
        · exact h
      · exact h
  | arm k =>
    simp only [Cache.step]
    cases hk : s.tasks[k]? with
    | none => exact h
    | some t =>
      simp only
      split
      · rename_i hidle
        refine h.update _ hk (fun _ h => .inl h) (fun _ _ h => h) ?_
        intro e
        have := h.over k t hk e
        rw [hidle] at this
        cases this
      · exact h
  | fire k =>
    simp only [Cache.step]
    cases hk : s.tasks[k]? with
    | none => exact h
    | some t =>
      simp only
      split
      · rename_i till harm
        split
        · have hact : t.phase ≠ .over := by
            intro e
            have := h.over k t hk e
            rw [harm] at this
            cases this
          refine h.update _ hk ?_ (fun _ _ h => h) (fun _ => rfl)
          intro id hid
          rw [AMap.get_put] at hid
          split at hid
          · rename_i e
            exact .inr ⟨hact, .inl e⟩
          · exact .inl hid
        · exact h
      · exact h

theorem OInv.init : OInv (Cache.init f) := by
  constructor
  · intro i t hi; simp [Cache.init] at hi
  · intro id hid; exact absurd rfl hid

theorem OInv.run (maxSize interval : Nat) (acts : List CAct) : ∀ {s : Cache f}, OInv s →
    OrderlyRun maxSize interval s acts → OInv (s.run maxSize interval acts) := by
  induction acts with
  | nil => intro s h _; exact h
  | cons a acts ih => intro s h ha; exact ih (h.step maxSize interval a ha.1) ha.2

end Verif.Rldp
