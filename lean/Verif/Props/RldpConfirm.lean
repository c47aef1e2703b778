import Verif.Props.RldpReceive

/-!
# C139: confirmations of a receiver

A receiver that cannot decode a part yet confirms every tenth symbol of it (incoming_transfer.rs:101-138); the sender
moves its window by these confirmations (C59).
-/
namespace Verif.Rldp

/-- What an observer of the replies counts: the parts completed, and the symbols of the current part answered with nothing
since the last confirmation or since the part began. -/
structure Tally where
  completed : Nat
  quiet : Nat
deriving DecidableEq, Repr

/-- One message with its reply. -/
def Tally.next (t : Tally) (m : Part) : Reply → Tally
  | .nothing => if m.part = t.completed then { t with quiet := t.quiet + 1 } else t
  | .confirm _ _ => { t with quiet := 0 }
  | .complete q => if q = t.completed then ⟨t.completed + 1, 0⟩ else t
  | .sizeMismatch => t
  | .paramsMismatch => t
  | .tooBig => t

/-- The messages a receiver took in, with its replies. -/
def Receiving.replies {f : Fec} (r : Receiving f) : List Part → List (Part × Reply)
  | [] => []
  | m :: ms =>
    match r.step m with
    | (r', some x) => (m, x) :: r'.replies ms
    | (r', none) => r'.replies ms

def tally (l : List (Part × Reply)) : Tally := l.foldl (fun t e => t.next e.1 e.2) ⟨0, 0⟩

/-- The observer counts as the receiver does. -/
def Counted {f : Fec} (r : Receiving f) (t : Tally) : Prop :=
  r.left = false → t.completed = r.transfer.part ∧ t.quiet = r.transfer.confirmCount ∧ t.quiet ≤ 9

theorem counted_decode {f : Fec} {t : Incoming f} {a : Tally} (h1 : a.completed = t.part) (h2 : a.quiet = t.confirmCount)
    (h3 : a.quiet ≤ 9) (total : Nat) (dec : f.Dec) (m : Part) (hm : m.part = t.part)
    (htotal : t.totalSize = some total) :
    ((t.decodePart total dec m).1.done = false → (a.next m (t.decodePart total dec m).2).completed =
        (t.decodePart total dec m).1.part ∧
      (a.next m (t.decodePart total dec m).2).quiet = (t.decodePart total dec m).1.confirmCount ∧
      (a.next m (t.decodePart total dec m).2).quiet ≤ 9) ∧
    (∀ p s, (t.decodePart total dec m).2 = .confirm p s → p = m.part ∧ s = m.seqno ∧ a.quiet = 9) ∧
    ((t.decodePart total dec m).2 = .nothing → a.quiet < 9) := by
  unfold Incoming.decodePart
  rcases f.decode dec m.seqno m.data with ⟨dec', _ | d⟩
  · dsimp only
    by_cases h9 : t.confirmCount = 9
    · simp only [if_pos h9, Tally.next]
      refine ⟨fun _ => ⟨h1, trivial, by omega⟩, fun p s e => ?_, fun e => by cases e⟩
      cases e
      exact ⟨rfl, rfl, by omega⟩
    · simp only [if_neg h9, Tally.next, if_pos (hm.trans h1.symm)]
      exact ⟨fun _ => ⟨h1, by omega, by omega⟩, (fun p s e => by cases e), fun _ => by omega⟩
  · dsimp only
    by_cases hb : d.length + t.data.length > total
    · simp only [if_pos hb, Tally.next]
      exact ⟨fun _ => ⟨h1, h2, h3⟩, (fun p s e => by cases e), (fun e => by cases e)⟩
    · simp only [if_neg hb]
      by_cases hl : t.data.length + d.length < total
      · simp only [if_pos hl, Tally.next, if_pos (hm.trans h1.symm)]
        exact ⟨fun _ => ⟨by omega, trivial, by omega⟩, (fun p s e => by cases e), (fun e => by cases e)⟩
      · simp only [if_neg hl]
        refine ⟨fun hd => ?_, (fun p s e => by cases e), (fun e => by cases e)⟩
        exfalso
        simp only [Incoming.done, htotal, List.length_append, decide_eq_false_iff_not] at hd
        omega

theorem counted_part {f : Fec} {t : Incoming f} {a : Tally} (h1 : a.completed = t.part) (h2 : a.quiet = t.confirmCount)
    (h3 : a.quiet ≤ 9) (total : Nat) (m : Part) (htotal : t.totalSize = some total) :
    ((t.partStep total m).1.done = false → (a.next m (t.partStep total m).2).completed = (t.partStep total m).1.part ∧
      (a.next m (t.partStep total m).2).quiet = (t.partStep total m).1.confirmCount ∧
      (a.next m (t.partStep total m).2).quiet ≤ 9) ∧
    (∀ p s, (t.partStep total m).2 = .confirm p s → p = m.part ∧ s = m.seqno ∧ m.part = a.completed ∧ a.quiet = 9) ∧
    ((t.partStep total m).2 = .nothing → m.part = a.completed → a.quiet < 9) := by
  unfold Incoming.partStep
  by_cases hl : m.part < t.part
  · rw [if_pos hl]
    refine ⟨fun _ => ?_, (fun p s e => by cases e), (fun e => by cases e)⟩
    have : m.part ≠ a.completed := by omega
    simp only [Tally.next, if_neg this]
    exact ⟨h1, h2, h3⟩
  · rw [if_neg hl]
    by_cases hg : t.part < m.part
    · rw [if_pos hg]
      have : m.part ≠ a.completed := by omega
      refine ⟨fun _ => ?_, (fun p s e => by cases e), fun _ e => absurd e this⟩
      simp only [Tally.next, if_neg this]
      exact ⟨h1, h2, h3⟩
    · rw [if_neg hg]
      have hm : m.part = t.part := by omega
      have key : ∀ dec, _ := fun dec => counted_decode h1 h2 h3 total dec m hm htotal
      cases hd : t.decoder with
      | none =>
        obtain ⟨k1, k2, k3⟩ := key (f.new m.fec)
        exact ⟨k1, fun p s e => ⟨(k2 p s e).1, (k2 p s e).2.1, by omega, (k2 p s e).2.2⟩, fun e _ => k3 e⟩
      | some pd =>
        obtain ⟨params, dec⟩ := pd
        dsimp only
        by_cases hp : params ≠ m.fec
        · rw [if_pos hp]
          exact ⟨fun _ => ⟨h1, h2, h3⟩, (fun p s e => by cases e), (fun e => by cases e)⟩
        · rw [if_neg hp]
          obtain ⟨k1, k2, k3⟩ := key dec
          exact ⟨k1, fun p s e => ⟨(k2 p s e).1, (k2 p s e).2.1, by omega, (k2 p s e).2.2⟩, fun e _ => k3 e⟩

theorem counted_chunk {f : Fec} {t : Incoming f} {a : Tally} (h1 : a.completed = t.part) (h2 : a.quiet = t.confirmCount)
    (h3 : a.quiet ≤ 9) (m : Part) :
    ((t.processChunk m).1.done = false → (a.next m (t.processChunk m).2).completed = (t.processChunk m).1.part ∧
      (a.next m (t.processChunk m).2).quiet = (t.processChunk m).1.confirmCount ∧
      (a.next m (t.processChunk m).2).quiet ≤ 9) ∧
    (∀ p s, (t.processChunk m).2 = .confirm p s → p = m.part ∧ s = m.seqno ∧ m.part = a.completed ∧ a.quiet = 9) ∧
    ((t.processChunk m).2 = .nothing → m.part = a.completed → a.quiet < 9) := by
  unfold Incoming.processChunk
  have same : ∀ x : Reply, (x = .sizeMismatch ∨ x = .tooBig) →
      (t.done = false → (a.next m x).completed = t.part ∧ (a.next m x).quiet = t.confirmCount ∧ (a.next m x).quiet ≤ 9) ∧
      (∀ p s, x = .confirm p s → p = m.part ∧ s = m.seqno ∧ m.part = a.completed ∧ a.quiet = 9) ∧
      (x = .nothing → m.part = a.completed → a.quiet < 9) := by
    rintro x (rfl | rfl) <;>
      exact ⟨fun _ => ⟨h1, h2, h3⟩, (fun p s e => by cases e), (fun e => by cases e)⟩
  cases ht : t.totalSize with
  | some n =>
    dsimp only
    by_cases hn : n ≠ m.totalSize
    · rw [if_pos hn]; exact same _ (.inl rfl)
    · rw [if_neg hn]; exact counted_part h1 h2 h3 n m ht
  | none =>
    dsimp only
    by_cases hn : m.totalSize > t.maxSize
    · rw [if_pos hn]; exact same _ (.inr rfl)
    · rw [if_neg hn]
      exact counted_part (t := { t with totalSize := some m.totalSize }) h1 h2 h3 m.totalSize m rfl

theorem counted_step {f : Fec} {r : Receiving f} {a : Tally} (h : Counted r a) (m : Part) :
    match r.step m with
    | (r', some x) => Counted r' (a.next m x)
    | (r', none) => Counted r' a := by
  unfold Receiving.step
  by_cases hl : r.left = true
  · rw [if_pos hl]; exact h
  · rw [if_neg hl]
    have hl' : r.left = false := by simpa using hl
    obtain ⟨h1, h2, h3⟩ := h hl'
    exact fun hd => (counted_chunk h1 h2 h3 m).1 hd

theorem counted_run {f : Fec} (ms : List Part) : ∀ (r : Receiving f) (l : List (Part × Reply)), Counted r (tally l) →
    Counted (r.run ms) (tally (l ++ r.replies ms)) := by
  induction ms with
  | nil => intro r l h; simpa [Receiving.run, Receiving.replies] using h
  | cons m ms ih =>
    intro r l h
    have hs := counted_step h m
    rcases hx : r.step m with ⟨r', _ | x⟩
    · rw [hx] at hs
      simp only [Receiving.run, List.foldl_cons, hx, Receiving.replies]
      exact ih r' l hs
    · rw [hx] at hs
      simp only [Receiving.run, List.foldl_cons, hx, Receiving.replies]
      have := ih r' (l ++ [(m, x)]) (by simpa [tally] using hs)
      simpa [Receiving.run] using this

/-- C139: whatever messages a receiver got before, and whatever the code is: it answers a message with a confirmation only
if the message is one of the current part and nine symbols of that part were answered with nothing before, since the last
confirmation or since the part began; the confirmation has the part and the number of the message. -/
theorem C139_confirms (f : Fec) (max : Nat) (ms : List Part) (m : Part) (p s : Nat)
    (h : (((Receiving.new f max).run ms).step m).2 = some (.confirm p s)) :
    p = m.part ∧ s = m.seqno ∧
    tally ((Receiving.new f max).replies ms) = ⟨m.part, 9⟩ := by
  have hc := counted_run ms (Receiving.new f max) [] (fun _ => ⟨rfl, rfl, by decide⟩)
  rw [List.nil_append] at hc
  unfold Receiving.step at h
  by_cases hl : ((Receiving.new f max).run ms).left = true
  · rw [if_pos hl] at h; cases h
  · rw [if_neg hl] at h
    obtain ⟨h1, h2, h3⟩ := hc (by simpa using hl)
    obtain ⟨e1, e2, e3, e4⟩ := (counted_chunk h1 h2 h3 m).2.1 p s (Option.some.inj h)
    refine ⟨e1, e2, ?_⟩
    rw [e3, ← e4]

/-- C139: and it never answers ten symbols of the current part in a row with nothing. -/
theorem C139_every_tenth (f : Fec) (max : Nat) (ms : List Part) (m : Part)
    (h : (((Receiving.new f max).run ms).step m).2 = some .nothing)
    (hm : m.part = (tally ((Receiving.new f max).replies ms)).completed) :
    (tally ((Receiving.new f max).replies ms)).quiet < 9 := by
  have hc := counted_run ms (Receiving.new f max) [] (fun _ => ⟨rfl, rfl, by decide⟩)
  rw [List.nil_append] at hc
  unfold Receiving.step at h
  by_cases hl : ((Receiving.new f max).run ms).left = true
  · rw [if_pos hl] at h; cases h
  · rw [if_neg hl] at h
    obtain ⟨h1, h2, h3⟩ := hc (by simpa using hl)
    exact (counted_chunk h1 h2 h3 m).2.2 (Option.some.inj h) hm

/-! ### Cases -/

/-- Symbols of a part that is not decoded with them. -/
def tenSymbols : List Part := (List.range 10).map fun n => ⟨⟨20000, 768, 27⟩, 0, 20000, n, []⟩

example : ((Receiving.new Fec.toy 30000).replies tenSymbols).map (·.2) =
    List.replicate 9 .nothing ++ [.confirm 0 9] := by decide +kernel
example := C139_confirms Fec.toy 30000 (tenSymbols.take 9) ⟨⟨20000, 768, 27⟩, 0, 20000, 9, []⟩ 0 9 (by decide +kernel)
example := C139_every_tenth Fec.toy 30000 (tenSymbols.take 8) ⟨⟨20000, 768, 27⟩, 0, 20000, 9, []⟩ (by decide +kernel)
  (by decide +kernel)

end Verif.Rldp
