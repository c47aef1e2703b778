import Verif.Model.FecWaves
import Verif.Props.FecSend

/-!
# C141: an FEC broadcast is sent in waves
-/
namespace Verif.Overlay
open Verif.Tl Verif.AdnlProto Verif.Rldp

variable {c : Crypto} {f : Fec}

/-- C141, full statement: the task that sends an FEC broadcast ends, whatever the length of a wave. -/
def C141_full : Prop :=
  ∀ (c : Crypto) (f : Fec), c.Lawful → f.Lawful → f.Offset → Fec.Sized f →
    ∀ (z : Zstd) (compressing : Bool) (sec : c.Sec) (data : Bytes) (clock : Nat → Nat) (waveLen : Nat),
      ∃ fuel, ((OutFec.new c z compressing data).waves c f clock sec waveLen fuel 0).2 = true

/-! ### Proofs -/

/-- While source symbols are left, the number of the next packet is the number of the next symbol. -/
def InStep (f : Fec) (t : OutFec) : Prop := t.enc.next < f.count t.enc.data → t.seqno = t.enc.next

theorem prepare_step (ho : f.Offset) {t : OutFec} (h : InStep f t) (now : Nat) (sec : c.Sec) :
    InStep f (t.prepare c f now sec).1 ∧ t.seqno < (t.prepare c f now sec).1.seqno ∧
    (t.prepare c f now sec).1.packets = t.packets := by
  unfold OutFec.prepare Enc.encode InStep
  by_cases hn : t.enc.next < f.count t.enc.data
  · simp only [if_pos hn]
    refine ⟨fun _ => trivial, ?_, trivial⟩
    have := h hn
    omega
  · simp only [if_neg hn]
    refine ⟨fun h' => absurd h' hn, ?_, trivial⟩
    rw [ho]
    omega

structure Burst (t : OutFec) (n i : Nat) (clock : Nat → Nat) (sec : c.Sec) (r : OutFec × List FecPart × Bool) : Prop where
  inStep : InStep f r.1
  packets : r.1.packets = t.packets
  seqno : t.seqno + r.2.1.length ≤ r.1.seqno
  le : r.2.1.length ≤ n
  short : t.seqno + r.2.1.length ≤ t.packets + 1
  more : r.2.2 = false → r.1.seqno ≤ r.1.packets ∧ r.2.1.length = n
  done : r.2.2 = true → r.1.packets < r.1.seqno
  sent : ∀ m, t.sent c f sec ((List.range' i (r.2.1.length + m)).map clock) =
    r.2.1 ++ r.1.sent c f sec ((List.range' (i + r.2.1.length) m).map clock)

theorem burst_spec (ho : f.Offset) (clock : Nat → Nat) (sec : c.Sec) (n : Nat) : ∀ (t : OutFec) (i : Nat),
    InStep f t → t.seqno ≤ t.packets → Burst (f := f) t n i clock sec (t.burst c f clock sec n i) := by
  induction n with
  | zero =>
    intro t i h hs
    exact ⟨h, rfl, Nat.le_refl _, Nat.le_refl _, Nat.le_succ_of_le hs, fun _ => ⟨hs, rfl⟩, (fun h => by cases h),
      fun m => by simp [OutFec.burst]⟩
  | succ n ih =>
    intro t i h hs
    obtain ⟨h1, h2, h3⟩ := prepare_step (c := c) ho h (clock i) sec
    have hturn : t.turn c f (clock i) sec = ((t.prepare c f (clock i) sec).1, some (t.prepare c f (clock i) sec).2) :=
      if_pos hs
    unfold OutFec.burst
    simp only
    by_cases hd : (t.prepare c f (clock i) sec).1.packets < (t.prepare c f (clock i) sec).1.seqno
    · rw [if_pos hd]
      refine ⟨h1, h3, h2, by simp, Nat.succ_le_succ hs, (fun h => by cases h), fun _ => hd, fun m => ?_⟩
      rw [List.length_singleton, Nat.add_comm 1 m, List.range'_succ, List.map_cons, OutFec.sent, hturn]
      rfl
    · rw [if_neg hd]
      have hb := ih (t.prepare c f (clock i) sec).1 (i + 1) h1 (by omega)
      have hq := hb.seqno
      have hl := hb.le
      have hsh := hb.short
      refine ⟨hb.inStep, hb.packets.trans h3, ?_, ?_, ?_, fun e => ⟨(hb.more e).1, ?_⟩, hb.done, fun m => ?_⟩
      · simp only [List.length_cons]; omega
      · simp only [List.length_cons]; omega
      · simp only [List.length_cons]; omega
      · have := (hb.more e).2
        simp only [List.length_cons]; omega
      · simp only [List.length_cons]
        rw [show ∀ a, a + 1 + m = (a + m) + 1 by intro a; omega, List.range'_succ, List.map_cons, OutFec.sent, hturn]
        simp only [Option.toList_some, List.cons_append, List.nil_append]
        rw [hb.sent m, show ∀ a, i + 1 + a = i + (a + 1) by intro a; omega]

structure Waves (t : OutFec) (waveLen i : Nat) (clock : Nat → Nat) (sec : c.Sec) (ws : List (List FecPart)) : Prop where
  ends : ∀ fuel, t.packets + 1 - t.seqno ≤ fuel → t.waves c f clock sec waveLen fuel i = (ws, true)
  sent : ∀ m, t.packets + 1 - t.seqno ≤ m → t.sent c f sec ((List.range' i m).map clock) = ws.flatten
  le : ∀ w ∈ ws, w.length ≤ waveLen
  full : ∀ w ∈ ws.dropLast, w.length = waveLen
  nonempty : ∀ w ∈ ws, w ≠ []

theorem waves_spec (ho : f.Offset) (clock : Nat → Nat) (sec : c.Sec) {waveLen : Nat} (hw : 0 < waveLen) (d : Nat) :
    ∀ (t : OutFec) (i : Nat), InStep f t → t.packets + 1 - t.seqno ≤ d →
      ∃ ws, Waves (f := f) t waveLen i clock sec ws := by
  induction d with
  | zero =>
    intro t i h hd
    refine ⟨[], fun fuel _ => ?_, fun m _ => ?_, (fun _ h => by cases h), (fun _ h => by cases h),
      (fun _ h => by cases h)⟩
    · cases fuel with
      | zero => simp only [OutFec.waves, decide_eq_true (show t.packets < t.seqno by omega)]
      | succ n => rw [OutFec.waves, if_neg (by omega)]
    · exact sent_stop sec _ t (by omega)
  | succ d ih =>
    intro t i h hd
    by_cases hs : t.seqno ≤ t.packets
    · have hb := burst_spec ho clock sec waveLen t i h hs
      have hq := hb.seqno
      have hp := hb.packets
      have hle := hb.le
      have hpos : 0 < (t.burst c f clock sec waveLen i).2.1.length := by
        cases waveLen with
        | zero => omega
        | succ n =>
          unfold OutFec.burst
          simp only
          split <;> simp
      have hne : (t.burst c f clock sec waveLen i).2.1 ≠ [] := List.ne_nil_of_length_pos hpos
      cases hdone : (t.burst c f clock sec waveLen i).2.2 with
      | true =>
        have hover := hb.done hdone
        refine ⟨[(t.burst c f clock sec waveLen i).2.1], fun fuel hf => ?_, fun m hm => ?_, ?_, ?_, ?_⟩
        · obtain ⟨n, rfl⟩ : ∃ n, fuel = n + 1 := ⟨fuel - 1, by omega⟩
          rw [OutFec.waves, if_pos hs]
          simp only [hdone, if_true]
        · have hsh := hb.short
          obtain ⟨m', rfl⟩ : ∃ m', m = (t.burst c f clock sec waveLen i).2.1.length + m' :=
            ⟨m - (t.burst c f clock sec waveLen i).2.1.length, by omega⟩
          rw [hb.sent m', sent_stop sec _ _ hover]
          simp
        · intro w hw'; rw [List.mem_singleton.mp hw']; exact hle
        · intro w hw'; cases hw'
        · intro w hw'; rw [List.mem_singleton.mp hw']; exact hne
      | false =>
        obtain ⟨hm1, hm2⟩ := hb.more hdone
        have hsh := hb.short
        obtain ⟨ws, hws⟩ := ih (t.burst c f clock sec waveLen i).1 (i + (t.burst c f clock sec waveLen i).2.1.length)
          hb.inStep (by omega)
        refine ⟨(t.burst c f clock sec waveLen i).2.1 :: ws, fun fuel hf => ?_, fun m hm => ?_, ?_, ?_, ?_⟩
        · obtain ⟨n, rfl⟩ : ∃ n, fuel = n + 1 := ⟨fuel - 1, by omega⟩
          rw [OutFec.waves, if_pos hs]
          simp only [hdone, Bool.false_eq_true, if_false]
          rw [hws.ends n (by omega)]
        · obtain ⟨m', rfl⟩ : ∃ m', m = (t.burst c f clock sec waveLen i).2.1.length + m' :=
            ⟨m - (t.burst c f clock sec waveLen i).2.1.length, by omega⟩
          rw [hb.sent m', hws.sent m' (by omega), List.flatten_cons]
        · intro w hw'
          rcases List.mem_cons.mp hw' with rfl | hw'
          · exact hle
          · exact hws.le w hw'
        · intro w hw'
          cases ws with
          | nil => cases hw'
          | cons a ws =>
            rw [List.dropLast_cons_cons] at hw'
            rcases List.mem_cons.mp hw' with rfl | hw'
            · exact hm2
            · exact hws.full w hw'
        · intro w hw'
          rcases List.mem_cons.mp hw' with rfl | hw'
          · exact hne
          · exact hws.nonempty w hw'
    · exact ih t i h (by omega)

/-- C141, the part that holds: with waves of at least one packet the task ends. It has sent the packets of
`OutFec.sent`, each with the time at which it was made, in waves of exactly `waveLen` packets, the last of which can
be shorter; no wave is empty. -/
theorem C141_waves_partial (ho : f.Offset) (z : Zstd) (compressing : Bool) (sec : c.Sec) (data : Bytes)
    (clock : Nat → Nat) (waveLen : Nat) (hw : 0 < waveLen) :
    ∃ ws, (∃ fuel, ∀ more, fuel ≤ more → (OutFec.new c z compressing data).waves c f clock sec waveLen more 0 = (ws, true)) ∧
      (∃ m, ∀ more, m ≤ more → (OutFec.new c z compressing data).sent c f sec ((List.range more).map clock) = ws.flatten) ∧
      (∀ w ∈ ws, w ≠ [] ∧ w.length ≤ waveLen) ∧ ∀ w ∈ ws.dropLast, w.length = waveLen := by
  obtain ⟨ws, h⟩ := waves_spec (f := f) ho clock sec hw _ (OutFec.new c z compressing data) 0 (fun _ => rfl) (Nat.le_refl _)
  refine ⟨ws, ⟨_, h.ends⟩, ⟨(OutFec.new c z compressing data).packets + 1 - (OutFec.new c z compressing data).seqno,
    fun more hm => ?_⟩, fun w hw' => ⟨h.nonempty w hw', h.le w hw'⟩, h.full⟩
  rw [List.range_eq_range', h.sent more hm]

/-- C141: with `fec_broadcast_wave_len = 0` the task never sends anything and never ends: it sleeps between empty
waves. -/
theorem C141_empty_waves (z : Zstd) (compressing : Bool) (sec : c.Sec) (data : Bytes) (clock : Nat → Nat) (fuel : Nat) :
    (OutFec.new c z compressing data).waves c f clock sec 0 fuel 0 = (List.replicate fuel [], false) := by
  have hs : ∀ t : OutFec, t.seqno ≤ t.packets → ∀ fuel i, t.waves c f clock sec 0 fuel i = (List.replicate fuel [], false) := by
    intro t ht fuel
    induction fuel with
    | zero => intro i; simp only [OutFec.waves, decide_eq_false (show ¬ t.packets < t.seqno by omega), List.replicate_zero]
    | succ n ih =>
      intro i
      rw [OutFec.waves, if_pos ht]
      simp only [OutFec.burst, Bool.false_eq_true, if_false, List.length_nil, Nat.add_zero, ih, List.replicate_succ]
  exact hs _ (Nat.zero_le _) fuel 0

/-- C141 does not hold for waves of no packets. -/
theorem C141_full_false : ¬ C141_full := fun h => by
  obtain ⟨fuel, hf⟩ := h Crypto.toy Fec.toy Crypto.toy_lawful Fec.toy_lawful FecSendExample.offset FecSendExample.sized
    sampleEnv.z false (5 : UInt8) [1] (fun _ => 0) 0
  have := C141_empty_waves (c := Crypto.toy) (f := Fec.toy) sampleEnv.z false (5 : UInt8) [1] (fun _ => 0) fuel
  exact Bool.noConfusion (hf.symm.trans (congrArg Prod.snd this))

/-! ### Examples -/

/-- 2000 bytes are three symbols: four packets go out, in waves of two. -/
example : ((OutFec.new Crypto.toy sampleEnv.z false (List.replicate 2000 1)).waves Crypto.toy Fec.toy (fun i => 100 + i)
    (5 : UInt8) 2 10 0).1.map (·.map fun b => (b.seqno, b.date)) = [[(0, 100), (1, 101)], [(2, 102), (6, 103)]] := by
  decide +kernel

/-- In waves of three the last one is shorter. -/
example : ((OutFec.new Crypto.toy sampleEnv.z false (List.replicate 2000 1)).waves Crypto.toy Fec.toy (fun i => 100 + i)
    (5 : UInt8) 3 10 0).1.map (·.length) = [3, 1] := by
  decide +kernel

example := C141_waves_partial (c := Crypto.toy) (f := Fec.toy) FecSendExample.offset sampleEnv.z false (5 : UInt8)
  (List.replicate 2000 1) (fun i => 100 + i) 2 (by decide)

example := C141_empty_waves (c := Crypto.toy) (f := Fec.toy) sampleEnv.z false (5 : UInt8) [1] (fun _ => 0) 7

end Verif.Overlay
