import Verif.Model.Tl
import Verif.Proofs.Num

namespace Verif.Tl

/-- `w` is an encoding of `x` for the reader `rd`, whatever follows. -/
def Encodes {α : Type} (rd : Reader α) (w : Bytes) (x : α) : Prop := ∀ r, rd (w ++ r) = some (x, r)

/-- What a reader returns depends only on the bytes it consumed. -/
def Local {α : Type} (rd : Reader α) : Prop :=
  ∀ b x r, rd b = some (x, r) → ∃ w, b = w ++ r ∧ Encodes rd w x

theorem bind_def {α β : Type} (m : Reader α) (f : α → Reader β) (b : Bytes) :
    (m >>= f) b = match m b with | none => none | some (x, r) => f x r := rfl

theorem pure_def {α : Type} (x : α) (b : Bytes) : (pure x : Reader α) b = some (x, b) := rfl

theorem Encodes.bind {α β : Type} {m : Reader α} {f : α → Reader β} {w w' : Bytes} {x : α} {y : β}
    (h : Encodes m w x) (h' : Encodes (f x) w' y) : Encodes (m >>= f) (w ++ w') y := by
  intro r
  rw [bind_def, List.append_assoc, h]
  exact h' r

theorem Encodes.pure {α : Type} (x : α) : Encodes (pure x : Reader α) [] x := fun _ => rfl

theorem Encodes.bindPure {α β : Type} {m : Reader α} {f : α → Reader β} {w : Bytes} {x : α} {y : β}
    (h : Encodes m w x) (h' : f x = Pure.pure y) : Encodes (m >>= f) w y := by
  intro r
  rw [bind_def, h]
  simp only [h']
  rfl

theorem Encodes.raw (d : Bytes) {n : Nat} (h : d.length = n) : Encodes (readRaw n) d d := by
  intro r
  subst h
  simp [readRaw]

theorem Encodes.u32 {n : Nat} (h : n < 2 ^ 32) : Encodes readU32 (writeU32 n) n := by
  refine Encodes.bindPure (Encodes.raw _ (by simp [writeU32])) ?_
  rw [writeU32, ofLE_leBytes_of_lt (by simpa using h)]

theorem Encodes.u64 {n : Nat} (h : n < 2 ^ 64) : Encodes readU64 (writeU64 n) n := by
  refine Encodes.bindPure (Encodes.raw _ (by simp [writeU64])) ?_
  rw [writeU64, ofLE_leBytes_of_lt (by simpa using h)]

theorem Encodes.hash {d : Bytes} (h : d.length = 32) : Encodes readHash d d := Encodes.raw d h

theorem Encodes.bytes {d : Bytes} (h : d.length < 2 ^ 24) : Encodes readBytes (writeBytes d) d := by
  unfold readBytes writeBytes
  by_cases hs : d.length < 254
  · rw [if_pos hs]
    have h1 : ofLE (leBytes 1 d.length) = d.length := ofLE_leBytes_of_lt (by omega)
    refine Encodes.bind (Encodes.raw _ (by simp)) ?_
    rw [h1, if_neg (by omega)]
    refine Encodes.bind (Encodes.raw _ rfl) ?_
    exact Encodes.bindPure (Encodes.raw _ (by simp)) rfl
  · rw [if_neg hs]
    have h1 : ofLE (leBytes 1 254) = 254 := by decide
    have h2 : ofLE (leBytes 3 d.length) = d.length := ofLE_leBytes_of_lt (by simpa using h)
    refine Encodes.bind (Encodes.raw _ (by simp)) ?_
    rw [h1, if_pos rfl]
    refine Encodes.bind (Encodes.raw _ (by simp)) ?_
    rw [h2]
    refine Encodes.bind (Encodes.raw _ rfl) ?_
    exact Encodes.bindPure (Encodes.raw _ (by simp)) rfl

theorem Encodes.readN {α : Type} {rd : Reader α} {w : α → Bytes} (xs : List α)
    (h : ∀ x ∈ xs, Encodes rd (w x) x) : Encodes (readN rd xs.length) ((xs.map w).flatten) xs := by
  induction xs with
  | nil => exact Encodes.pure _
  | cons x xs ih =>
    simp only [List.length_cons, Tl.readN, List.map_cons, List.flatten_cons]
    refine Encodes.bind (h x (by simp)) ?_
    exact Encodes.bindPure (ih fun y hy => h y (by simp [hy])) rfl

theorem Encodes.vec {α : Type} {rd : Reader α} {w : α → Bytes} (xs : List α)
    (hl : xs.length < 2 ^ 32) (h : ∀ x ∈ xs, Encodes rd (w x) x) :
    Encodes (readVec rd) (writeVec w xs) xs :=
  Encodes.bind (Encodes.u32 hl) (Encodes.readN xs h)

theorem Encodes.measured {α : Type} {rd : Reader α} {w : Bytes} {x : α} (h : Encodes rd w x) :
    Encodes (measured rd) w (x, w.length) := by
  intro r
  simp only [Tl.measured, h r, List.length_append, Nat.add_sub_cancel]

theorem Encodes.optSome {α : Type} {rd : Reader α} {w : Bytes} {x : α} {flags bit : Nat}
    (hf : flags.testBit bit = true) (h : Encodes rd w x) :
    Encodes (readOpt flags bit rd) w (some x) := by
  unfold readOpt
  rw [if_pos hf]
  exact Encodes.bindPure h rfl

theorem Encodes.optNone {α : Type} {rd : Reader α} {flags bit : Nat}
    (hf : flags.testBit bit = false) : Encodes (readOpt flags bit rd) [] (none : Option α) := by
  unfold readOpt
  rw [hf]
  exact Encodes.pure _

theorem Encodes.opt {α : Type} {rd : Reader α} {w : α → Bytes} {o : Option α} {flags bit : Nat}
    (hf : flags.testBit bit = o.isSome) (h : ∀ x, o = some x → Encodes rd (w x) x) :
    Encodes (readOpt flags bit rd) (writeOpt w o) o := by
  cases o with
  | none => exact Encodes.optNone hf
  | some x => exact Encodes.optSome hf (h x rfl)

theorem Encodes.eq_of_reads {α : Type} {rd : Reader α} {w r r' : Bytes} {x y : α}
    (h : Encodes rd w x) (h' : rd (w ++ r) = some (y, r')) : y = x ∧ r' = r := by
  rw [h r] at h'
  cases h'
  exact ⟨rfl, rfl⟩

/-! ## Locality -/

theorem Local.pure {α : Type} (x : α) : Local (pure x : Reader α) := by
  intro b y r h
  cases h
  exact ⟨[], rfl, Encodes.pure x⟩

theorem Local.fail {α : Type} : Local (fail : Reader α) := by
  intro b x r h; cases h

theorem Local.bind {α β : Type} {m : Reader α} {f : α → Reader β} (h : Local m)
    (h' : ∀ x, Local (f x)) : Local (m >>= f) := by
  intro b y r hb
  rw [bind_def] at hb
  cases hm : m b with
  | none => rw [hm] at hb; cases hb
  | some p =>
    obtain ⟨x, r1⟩ := p
    rw [hm] at hb
    obtain ⟨w, rfl, hw⟩ := h b x r1 hm
    obtain ⟨w', rfl, hw'⟩ := h' x r1 y r hb
    exact ⟨w ++ w', by simp, Encodes.bind hw hw'⟩

theorem Local.ite {α : Type} {m m' : Reader α} {c : Prop} [Decidable c] (h : Local m)
    (h' : Local m') : Local (if c then m else m') := by
  by_cases hc : c
  · rw [if_pos hc]; exact h
  · rw [if_neg hc]; exact h'

theorem Local.raw (n : Nat) : Local (readRaw n) := by
  intro b x r h
  unfold readRaw at h
  split at h
  · cases h
  · cases h
    refine ⟨b.take n, by simp, Encodes.raw _ ?_⟩
    simp; omega

theorem Local.u32 : Local readU32 := Local.bind (Local.raw _) fun _ => Local.pure _
theorem Local.u64 : Local readU64 := Local.bind (Local.raw _) fun _ => Local.pure _
theorem Local.hash : Local readHash := Local.raw _

theorem Local.bytes : Local readBytes := by
  refine Local.bind (Local.raw _) fun h => Local.ite ?_ ?_
  · exact Local.bind (Local.raw _) fun _ => Local.bind (Local.raw _) fun _ =>
      Local.bind (Local.raw _) fun _ => Local.pure _
  · exact Local.bind (Local.raw _) fun _ => Local.bind (Local.raw _) fun _ => Local.pure _

theorem Local.readN {α : Type} {rd : Reader α} (h : Local rd) (n : Nat) : Local (readN rd n) := by
  induction n with
  | zero => exact Local.pure _
  | succ n ih => exact Local.bind h fun _ => Local.bind ih fun _ => Local.pure _

theorem Local.vec {α : Type} {rd : Reader α} (h : Local rd) : Local (readVec rd) :=
  Local.bind Local.u32 fun n => Local.readN h n

theorem Local.measured {α : Type} {rd : Reader α} (h : Local rd) : Local (measured rd) := by
  intro b y r hb
  unfold Tl.measured at hb
  cases hr : rd b with
  | none => rw [hr] at hb; cases hb
  | some p =>
    obtain ⟨x, r1⟩ := p
    rw [hr] at hb
    cases hb
    obtain ⟨w, rfl, hw⟩ := h b x r hr
    refine ⟨w, rfl, ?_⟩
    have := Encodes.measured hw
    simpa using this

theorem Local.opt {α : Type} {rd : Reader α} (h : Local rd) (flags bit : Nat) :
    Local (readOpt flags bit rd) := by
  unfold readOpt
  cases flags.testBit bit with
  | true => exact Local.bind h fun _ => Local.pure _
  | false => exact Local.pure _

theorem readU32_lt {b r : Bytes} {n : Nat} (h : readU32 b = some (n, r)) : n < 2 ^ 32 := by
  unfold readU32 at h
  rw [bind_def] at h
  unfold readRaw at h
  split at h
  · cases h
  · rename_i hl
    split at hl
    · cases hl
    · cases hl
      cases h
      have := ofLE_lt (b.take 4)
      have hlen : (b.take 4).length = 4 := by simp; omega
      rw [hlen] at this
      simpa using this

theorem readRaw_some {n : Nat} {b r x : Bytes} (h : readRaw n b = some (x, r)) :
    n ≤ b.length ∧ x = b.take n ∧ r = b.drop n := by
  unfold readRaw at h
  split at h
  · cases h
  · cases h; exact ⟨by omega, rfl, rfl⟩

theorem bind_some {α β : Type} {m : Reader α} {f : α → Reader β} {b r : Bytes} {y : β}
    (h : (m >>= f) b = some (y, r)) : ∃ x r1, m b = some (x, r1) ∧ f x r1 = some (y, r) := by
  rw [bind_def] at h
  cases hm : m b with
  | none => rw [hm] at h; cases h
  | some p => rw [hm] at h; exact ⟨p.1, p.2, rfl, h⟩

theorem readBytes_length_le {b r d : Bytes} (h : readBytes b = some (d, r)) :
    d.length ≤ b.length := by
  unfold readBytes at h
  obtain ⟨x, r1, h1, h2⟩ := bind_some h
  obtain ⟨-, -, e1⟩ := readRaw_some h1
  split at h2
  · obtain ⟨l, r2, h3, h4⟩ := bind_some h2
    obtain ⟨d', r3, h5, h6⟩ := bind_some h4
    obtain ⟨_, r4, h7, h8⟩ := bind_some h6
    cases h8
    obtain ⟨-, -, e3⟩ := readRaw_some h3
    obtain ⟨e4, e5, -⟩ := readRaw_some h5
    rw [e5, List.length_take]
    rw [e3, e1] at e4 ⊢
    simp only [List.length_drop] at e4 ⊢
    omega
  · obtain ⟨d', r3, h5, h6⟩ := bind_some h2
    obtain ⟨_, r4, h7, h8⟩ := bind_some h6
    cases h8
    obtain ⟨e4, e5, -⟩ := readRaw_some h5
    rw [e5, List.length_take, e1]
    simp only [List.length_drop]
    omega

theorem measured_some {α : Type} {rd : Reader α} (hl : Local rd) {b r : Bytes} {x : α} {n : Nat}
    (h : measured rd b = some ((x, n), r)) : ∃ w, b = w ++ r ∧ n = w.length ∧ Encodes rd w x := by
  unfold measured at h
  cases hb : rd b with
  | none => rw [hb] at h; cases h
  | some y =>
    obtain ⟨y1, y2⟩ := y
    rw [hb] at h
    cases h
    obtain ⟨w, rfl, he⟩ := hl _ _ _ hb
    exact ⟨w, rfl, by simp, he⟩

theorem readU32_some {b r : Bytes} {n : Nat} (h : readU32 b = some (n, r)) :
    ∃ w, w.length = 4 ∧ b = w ++ r ∧ n = ofLE w := by
  obtain ⟨x, r1, h1, h2⟩ := bind_some h
  obtain ⟨e1, e2, e3⟩ := readRaw_some h1
  cases h2
  exact ⟨b.take 4, by simp; omega, by rw [e3]; simp, by rw [e2]⟩

theorem Encodes.u32_raw {w : Bytes} (h : w.length = 4) : Encodes readU32 w (ofLE w) :=
  Encodes.bindPure (Encodes.raw _ h) rfl

theorem readBytes_nil : readBytes [] = none := rfl

/-! ## Sizes -/

@[simp] theorem writeU32_length (n : Nat) : (writeU32 n).length = 4 := by simp [writeU32]
@[simp] theorem writeU64_length (n : Nat) : (writeU64 n).length = 8 := by simp [writeU64]

theorem padding_lt (n : Nat) : padding n < 4 := by unfold padding; omega

theorem writeBytes_length (d : Bytes) : (writeBytes d).length =
    if d.length < 254 then 1 + d.length + padding (1 + d.length)
    else 4 + d.length + padding d.length := by
  unfold writeBytes
  split <;> simp <;> omega

end Verif.Tl
