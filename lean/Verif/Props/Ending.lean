import Verif.Model.Ending
import Verif.Model.OverlayBroadcast
import Verif.Model.RldpTransfer
import Verif.Proofs.Transfer2
import Verif.Props.Handshake
import Verif.Props.Channel
import Verif.Props.Delivery

/-!
# C124: handling what is received ends without aborting

Full claim: whatever datagrams arrive at a node (and whatever else happens in between), the handling of each
of them returns. It is false: two parts of a message in one datagram of a stranger, the first of them empty,
keep a thread busy for ever. Without empty parts the handling always returns, as long as the clock does not
overflow 32 bits in a debug build.
-/
set_option linter.unusedTactic false

namespace Verif.Process
open Verif.Adnl Verif.AdnlProto Verif.Address Verif.Node

variable {c : Crypto}

/-- The clock and the two intervals added to it fit into 32 bits (or the build does not check). -/
def ClockFits (o : Opts c) (now : Nat) : Prop :=
  o.build = .debug → now + o.clockTolerance < 2 ^ 32 ∧ now + o.addressListTimeout < 2 ^ 32

/-- The node after a list of happenings. -/
def after (o : Opts c) (ul : Bool) (subs : Event → Reply) (s : Full c) (hs : List (Happening c)) : Full c :=
  hs.foldl (happens o ul subs) s

/-- The full claim. -/
def C124_full : Prop :=
  ∀ (c : Crypto) (_ : c.Lawful) (o : Opts c) (ul : Bool) (subs : Event → Reply) (n : State c)
    (hs : List (Happening c)) (now : Nat) (data : Bytes) (key : c.Sec) (rand : Nat → Sender.Rand c),
    ClockFits o now → ending o ul now subs (after o ul subs ⟨n, []⟩ hs) data key rand = .returned

/-! ### Aborting -/

theorem addU32_isSome {m : Build} {a b : Nat} (h : m = .debug → a + b < 2 ^ 32) : (addU32 m a b).isSome := by
  unfold addU32
  split
  · rfl
  · rename_i hge
    cases m with
    | debug => exact absurd (h rfl) hge
    | release => rfl

theorem sendPacket_runs (o : Opts c) (ul : Bool) (now : Nat) (h : ClockFits o now) (peerId : Bytes) (p : Peer c)
    (sg : Sender.Signer c) (ms : OutMessages) (r : Sender.Rand c) :
    ∃ x, Sender.sendPacket o ul now peerId p sg ms r = .ok x := by
  obtain ⟨v, hv⟩ := Option.isSome_iff_exists.mp (addU32_isSome (fun hb => (h hb).2))
  unfold Sender.sendPacket
  rw [hv]
  cases sg with
  | channel ch prio => exact ⟨_, rfl⟩
  | random key => exact ⟨_, rfl⟩

theorem sendAll_runs (o : Opts c) (ul : Bool) (now : Nat) (h : ClockFits o now) (peerId : Bytes)
    (sg : Sender.Signer c) (l : List OutMessages) :
    ∀ (p : Peer c) (rand : Nat → Sender.Rand c), ∃ x, Sender.sendAll o ul now peerId sg p l rand = .ok x := by
  induction l with
  | nil => intro p rand; exact ⟨_, rfl⟩
  | cons m l ih =>
    intro p rand
    obtain ⟨⟨p', d⟩, h1⟩ := sendPacket_runs o ul now h peerId p sg m (rand 0)
    obtain ⟨⟨p'', ds⟩, h2⟩ := ih p' (fun k => rand (k + 1))
    exact ⟨(p'', d :: ds), by simp only [Sender.sendAll, h1, h2]⟩

theorem sendMessage_ne_panic (o : Opts c) (ul : Bool) (now : Nat) (h : ClockFits o now) (s : State c)
    (l q : Bytes) (m : Message) (prio : Bool) (rand : Nat → Sender.Rand c) :
    Sender.sendMessage o ul now s l q m prio rand ≠ .error .panic := by
  unfold Sender.sendMessage
  repeat' (first | split | (intro hh; cases hh; done))
  rename_i size _
  obtain ⟨x, hx⟩ := sendAll_runs o ul now h q _ (Sender.packets c.sha (Sender.additional now _ (s.channel q)) m size) _ rand
  rw [hx]
  simp

theorem wholeEnding_ne_aborted (o : Opts c) (ul : Bool) (now : Nat) (h : ClockFits o now) (subs : Event → Reply)
    (s : Full c) (l q : Bytes) (prio : Bool) (rand : Nat → Sender.Rand c) (m : Message) :
    wholeEnding o ul now subs s l q prio rand m = .returned := by
  unfold wholeEnding
  repeat' (first | rfl | split)
  rename_i hs
  exact absurd hs (sendMessage_ne_panic o ul now h _ _ _ _ _ _)

theorem messageEnding_ne_aborted (o : Opts c) (ul : Bool) (now : Nat) (h : ClockFits o now) (subs : Event → Reply)
    (s : Full c) (l q : Bytes) (prio : Bool) (rand : Nat → Sender.Rand c) (m : Message) :
    messageEnding o ul now subs s l q prio rand m ≠ .aborted := by
  unfold messageEnding
  repeat' (first | (intro hh; cases hh; done) | split)
  all_goals rw [wholeEnding_ne_aborted o ul now h]; simp

theorem allEnding_ne_aborted (o : Opts c) (ul : Bool) (now : Nat) (h : ClockFits o now) (subs : Event → Reply)
    (l q : Bytes) (prio : Bool) (ms : List Message) :
    ∀ (s : Full c) (rand : Nat → Sender.Rand c), allEnding o ul now subs l q prio rand s ms ≠ .aborted := by
  induction ms with
  | nil => intro s rand; simp [allEnding]
  | cons m ms ih =>
    intro s rand
    unfold allEnding
    have := messageEnding_ne_aborted o ul now h subs s l q prio rand m
    split
    · split
      split
      · exact ih _ _
      · simp
    · exact this

theorem decrypt_ne_panic (hc : c.Lawful) (o : Opts c) (s s' : State c) (data : Bytes) :
    Receiver.decrypt o s data ≠ (s', .error .panic) := by
  unfold Receiver.decrypt
  have h1 := (C11_short_foreign_and_bounds c hc o.keys data).2.2
  repeat' (first | (intro hh; cases hh; done) | split)
  · exact absurd ‹_› h1
  · rename_i ch _ _ hp
    exact absurd hp (C13_short_and_bounds c hc ch _ data).2

theorem verify_ne_panic (raw : Bytes) (sig : Option SigInfo) (pub : c.Pub) (b : Bool) :
    Receiver.verify c raw sig pub b ≠ some .panic := by
  unfold Receiver.verify
  repeat' (first | (intro hh; cases hh; done) | split)

theorem parse_ne_panic (m : Build) (now tol : Nat) (h : m = .debug → now + tol < 2 ^ 32) (a : AddrList) :
    Address.parse m now tol a ≠ .panic := by
  obtain ⟨v, hv⟩ := Option.isSome_iff_exists.mp (addU32_isSome h)
  unfold Address.parse
  rw [hv]
  repeat' (first | (intro hh; cases hh; done) | split)
  rename_i hh
  cases hh

theorem source_ne_panic (o : Opts c) (now : Nat) (h : ClockFits o now) (s s' : State c) (raw : Bytes) (pkt : InPacket)
    (l : Bytes) (chan : Option Bytes) (key : c.Sec) :
    Receiver.source o now s raw pkt l chan key ≠ (s', .error .panic) := by
  unfold Receiver.source
  simp only []
  repeat' (first | (intro hh; cases hh; done) | split)
  · rename_i hv
    intro hh
    cases hh
    exact verify_ne_panic _ _ _ _ hv
  · rename_i hp
    exact absurd hp (parse_ne_panic _ _ _ (fun hb => (h hb).1) _)

theorem lookup_ne_panic (s : State c) (l q : Bytes) (b : Bool) : Receiver.lookup s l q b ≠ .error .panic := by
  unfold Receiver.lookup
  repeat' (first | (intro hh; cases hh; done) | split)

theorem checkDates_ne_panic (o : Opts c) (now : Nat) (h : ClockFits o now) (p p' : Peer c) (d : Option ReinitDates) :
    Receiver.checkDates o now p d ≠ (p', .fail .panic) := by
  obtain ⟨v, hv⟩ := Option.isSome_iff_exists.mp (addU32_isSome (fun hb => (h hb).1))
  unfold Receiver.checkDates
  rw [hv]
  repeat' (first | (intro hh; cases hh; done) | split)
  rename_i hh
  cases hh

/-- The errors that stand for a panic. -/
def Panics (e : Receiver.Err) : Prop := e = .panic ∨ e = .sender .panic

theorem checkDates_err (o : Opts c) (now : Nat) (h : ClockFits o now) (p p' : Peer c) (d : Option ReinitDates)
    (e : Receiver.Err) (he : Receiver.checkDates o now p d = (p', .fail e)) : ¬ Panics e := by
  rintro (rfl | rfl)
  · exact checkDates_ne_panic o now h p p' d he
  · revert he
    unfold Receiver.checkDates
    repeat' (first | (intro hh; cases hh; done) | split)

theorem session_ok (o : Opts c) (ul : Bool) (now : Nat) (h : ClockFits o now) (s s' : State c) (pkt : InPacket)
    (l q : Bytes) (p : Peer c) (prio : Bool) (rand : Nat → Sender.Rand c) (e : Receiver.Err) (out : List Bytes)
    (he : Receiver.session o ul now s pkt l q p prio rand = (s', .fail e, out)) : ¬ Panics e := by
  revert he
  unfold Receiver.session
  simp only []
  split
  · rename_i e' hd
    intro hh
    cases hh
    exact checkDates_err o now h _ _ _ _ hd
  · split
    · rename_i e' hs
      intro hh
      cases hh
      rintro (h1 | h1)
      · cases h1
      · cases h1
        exact sendMessage_ne_panic o ul now h _ _ _ _ _ _ hs
    · intro hh
      cases hh
      rintro (h1 | h1) <;> cases h1
  · split
    · intro hh; cases hh
    · intro hh; cases hh; rintro (h1 | h1) <;> cases h1
    · intro hh; cases hh

theorem source_err (o : Opts c) (now : Nat) (h : ClockFits o now) (s s' : State c) (raw : Bytes) (pkt : InPacket)
    (l : Bytes) (chan : Option Bytes) (key : c.Sec) (e : Receiver.Err)
    (he : Receiver.source o now s raw pkt l chan key = (s', .error e)) : ¬ Panics e := by
  rintro (rfl | rfl)
  · exact source_ne_panic o now h s s' raw pkt l chan key he
  · revert he
    unfold Receiver.source
    simp only []
    repeat' (first | (intro hh; cases hh; done) | split)
    rename_i hv
    intro hh
    cases hh
    revert hv
    unfold Receiver.verify
    repeat' (first | (intro hh; cases hh; done) | split)

theorem handle_ok (hc : c.Lawful) (o : Opts c) (ul : Bool) (now : Nat) (h : ClockFits o now) (s s' : State c)
    (data : Bytes) (key : c.Sec) (rand : Nat → Sender.Rand c) (e : Receiver.Err) (out : List Bytes)
    (he : Receiver.handle o ul now s data key rand = (s', .fail e, out)) : ¬ Panics e := by
  revert he
  unfold Receiver.handle
  split
  · rename_i e' hd
    intro hh
    cases hh
    rintro (rfl | rfl)
    · exact decrypt_ne_panic hc o s _ data hd
    · revert hd
      unfold Receiver.decrypt
      repeat' (first | (intro hh; cases hh; done) | split)
  · intro hh; cases hh
  · split
    · intro hh; cases hh; rintro (h1 | h1) <;> cases h1
    · split
      · intro hh; cases hh; rintro (h1 | h1) <;> cases h1
      · split
        · intro hh; cases hh
        · intro hh; cases hh
        · rename_i hck
          intro hh
          cases hh
          revert hck
          unfold Receiver.checkPacket
          split
          · rename_i hs
            intro hh
            cases hh
            exact source_err o now h _ _ _ _ _ _ _ _ hs
          · split
            · rename_i hl
              intro hh
              cases hh
              rintro (rfl | rfl)
              · exact lookup_ne_panic _ _ _ _ hl
              · revert hl
                unfold Receiver.lookup
                repeat' (first | (intro hh; cases hh; done) | split)
            · split
              · rename_i hv
                intro hh
                cases hh
                split at hv
                · revert hv
                  unfold Receiver.verify
                  repeat' (first | (intro hh; cases hh; done) | split)
                  all_goals (intro hh; cases hh; rintro (h1 | h1) <;> cases h1)
                · cases hv
              · intro hh
                exact session_ok o ul now h _ _ _ _ _ _ _ _ _ _ hh

/-- C124: no datagram makes its handling panic, in whatever state the node is; in a debug build as long as
the clock plus 60 seconds (the tolerance) and plus 1000 seconds (the lifetime of address lists) fits into
32 bits. -/
theorem C124_no_abort (hc : c.Lawful) (o : Opts c) (ul : Bool) (now : Nat) (h : ClockFits o now)
    (subs : Event → Reply) (s : Full c) (data : Bytes) (key : c.Sec) (rand : Nat → Sender.Rand c) :
    ending o ul now subs s data key rand ≠ .aborted := by
  unfold ending
  split
  · rename_i hh
    exact absurd (.inl rfl) (handle_ok hc o ul now h _ _ _ _ _ _ _ hh)
  · rename_i hh
    exact absurd (.inr rfl) (handle_ok hc o ul now h _ _ _ _ _ _ _ hh)
  · exact allEnding_ne_aborted o ul now h subs _ _ _ _ _ _
  · simp

/-! ### Not returning -/

/-- No transfer holds an empty part. -/
def Solid (t : Transfer.Table) : Prop := ∀ h x, (h, x) ∈ t → ∀ e ∈ x.parts, e.2 ≠ []

/-- A message that is not an empty part. -/
def NotEmptyPart : Message → Prop
  | .part _ _ _ d => d ≠ []
  | _ => True

theorem solid_get {t : Transfer.Table} (h : Solid t) (hash : Bytes) (total : Nat) :
    ∀ e ∈ ((t.get hash).getD (Transfer.Transfer.new total)).parts, e.2 ≠ [] := by
  cases hg : t.get hash with
  | none => intro e he; simp [Transfer.Transfer.new] at he
  | some x => exact h hash x (AMap.mem_of_get hg)

theorem recvPart_solid (sha : Bytes → Bytes) {t : Transfer.Table} (h : Solid t) (p : Transfer.Part) (hd : p.data ≠ []) :
    (Transfer.recvPart sha t p).2 ≠ .hang ∧ Solid (Transfer.recvPart sha t p).1 := by
  obtain ⟨a, b⟩ := Transfer.addPart_no_hang sha _ p.offset p.data p.hash (solid_get h p.hash p.total) hd
  have herase : Solid (t.erase p.hash) := fun k x hx => h k x (AMap.mem_erase.mp hx).1
  have hput : Solid (t.put p.hash (Transfer.addPart sha ((t.get p.hash).getD (Transfer.Transfer.new p.total)) p.offset
      p.data p.hash).1) := by
    intro k x hx
    rcases AMap.mem_put.mp hx with he | he
    · cases he; exact b
    · exact h k x he.1
  unfold Transfer.recvPart
  simp only []
  split
  · exact ⟨by simp, hput⟩
  · rename_i hh; exact absurd hh a
  · exact ⟨a, herase⟩

theorem processWhole_transfers (o : Opts c) (ul : Bool) (now : Nat) (subs : Event → Reply) (s : Full c) (l q : Bytes)
    (prio : Bool) (rand : Nat → Sender.Rand c) (m : Message) :
    (processWhole o ul now subs s l q prio rand m).1.transfers = s.transfers := by
  unfold processWhole
  repeat' (first | rfl | split)

theorem wholeEnding_ne_stuck (o : Opts c) (ul : Bool) (now : Nat) (subs : Event → Reply)
    (s : Full c) (l q : Bytes) (prio : Bool) (rand : Nat → Sender.Rand c) (m : Message) :
    wholeEnding o ul now subs s l q prio rand m ≠ .stuck := by
  unfold wholeEnding
  repeat' (first | (intro hh; cases hh; done) | split)

theorem message_solid (o : Opts c) (ul : Bool) (now : Nat) (subs : Event → Reply) (s : Full c) (l q : Bytes)
    (prio : Bool) (rand : Nat → Sender.Rand c) (m : Message) (hs : Solid s.transfers) (hm : NotEmptyPart m) :
    messageEnding o ul now subs s l q prio rand m ≠ .stuck ∧
    Solid (processMessage o ul now subs s l q prio rand m).1.transfers := by
  cases m with
  | part hash total offset data =>
    obtain ⟨a, b⟩ := recvPart_solid c.sha hs ⟨hash, total, offset, data⟩ hm
    unfold messageEnding processMessage
    simp only []
    generalize Transfer.recvPart c.sha s.transfers ⟨hash, total, offset, data⟩ = r at a b ⊢
    obtain ⟨t, res⟩ := r
    cases res with
    | hang => exact absurd rfl a
    | some buf =>
      simp only []
      cases readMessage buf with
      | none => exact ⟨by simp, b⟩
      | some x =>
        refine ⟨wholeEnding_ne_stuck o ul now subs _ _ _ _ _ _, ?_⟩
        simp only []
        rw [processWhole_transfers]
        exact b
    | none => exact ⟨by simp, b⟩
    | tooMuch => exact ⟨by simp, b⟩
    | partMissing => exact ⟨by simp, b⟩
    | invalidHash => exact ⟨by simp, b⟩
  | _ =>
    refine ⟨?_, ?_⟩
    · unfold messageEnding
      exact wholeEnding_ne_stuck o ul now subs _ _ _ _ _ _
    · show Solid (processWhole o ul now subs s l q prio rand _).1.transfers
      rw [processWhole_transfers]
      exact hs

theorem all_solid (o : Opts c) (ul : Bool) (now : Nat) (subs : Event → Reply) (l q : Bytes) (prio : Bool)
    (ms : List Message) : ∀ (s : Full c) (rand : Nat → Sender.Rand c), Solid s.transfers → (∀ m ∈ ms, NotEmptyPart m) →
    allEnding o ul now subs l q prio rand s ms ≠ .stuck ∧
    Solid (processAll o ul now subs l q prio rand s ms).1.transfers := by
  induction ms with
  | nil => intro s rand hs _; exact ⟨by simp [allEnding], hs⟩
  | cons m ms ih =>
    intro s rand hs hm
    obtain ⟨a, b⟩ := message_solid o ul now subs s l q prio rand m hs (hm m (by simp))
    unfold allEnding processAll
    generalize processMessage o ul now subs s l q prio rand m = r at b ⊢
    obtain ⟨s', r⟩ := r
    simp only [] at b ⊢
    obtain ⟨i, j⟩ := ih s' (fun k => rand (r.sent.length + k)) b (fun x hx => hm x (List.mem_cons_of_mem _ hx))
    refine ⟨?_, ?_⟩
    · split
      · split
        · exact i
        · simp
      · exact a
    · split
      · exact j
      · exact b

/-- In this state of the node, the datagram is not one that is accepted and brings an empty part. -/
def BringsNoEmptyPart (o : Opts c) (ul : Bool) (s : Full c) : Happening c → Prop
  | .datagram now data key rand => ∀ l q prio ms,
      (Receiver.handle o ul now s.node data key rand).2.1 = .accepted l q prio ms → ∀ m ∈ ms, NotEmptyPart m
  | _ => True

theorem datagram_solid (o : Opts c) (ul : Bool) (now : Nat) (subs : Event → Reply) (s : Full c) (data : Bytes)
    (key : c.Sec) (rand : Nat → Sender.Rand c) (hs : Solid s.transfers)
    (hb : BringsNoEmptyPart o ul s (.datagram now data key rand)) :
    ending o ul now subs s data key rand ≠ .stuck ∧ Solid (receive o ul now subs s data key rand).1.transfers := by
  simp only [BringsNoEmptyPart] at hb
  unfold ending receive
  generalize Receiver.handle o ul now s.node data key rand = r at hb ⊢
  obtain ⟨n, out, ds⟩ := r
  cases out with
  | accepted l q prio ms =>
    exact all_solid o ul now subs l q prio ms { s with node := n } _ hs (hb l q prio ms rfl)
  | unknownId => exact ⟨by simp, hs⟩
  | duplicate => exact ⟨by simp, hs⟩
  | fail e =>
    refine ⟨?_, hs⟩
    split
    · simp
    · simp
    · rename_i hh; cases hh
    · simp

theorem after_solid (o : Opts c) (ul : Bool) (subs : Event → Reply) (hs : List (Happening c)) :
    ∀ s : Full c, Solid s.transfers →
    (∀ k (hk : k < hs.length), BringsNoEmptyPart o ul (after o ul subs s (hs.take k)) hs[k]) →
    Solid (after o ul subs s hs).transfers := by
  induction hs with
  | nil => intro s h _; exact h
  | cons x hs ih =>
    intro s h hb
    have h0 := hb 0 (by simp)
    have hstep : Solid (happens o ul subs s x).transfers := by
      cases x with
      | datagram now data key rand => exact (datagram_solid o ul now subs s data key rand h h0).2
      | timeout id => exact fun k y hy => h k y (AMap.mem_erase.mp hy).1
      | other n => exact h
    exact ih _ hstep (fun k hk => hb (k + 1) (by simpa using hk))

/-- C124 (partial): as long as no accepted packet brings an empty part, the handling of every datagram
returns, from a node without transfers on. (Missing: the code does not refuse empty parts.) -/
theorem C124_returns_partial (hc : c.Lawful) (o : Opts c) (ul : Bool) (subs : Event → Reply) (n : State c)
    (hs : List (Happening c)) (now : Nat) (data : Bytes) (key : c.Sec) (rand : Nat → Sender.Rand c)
    (hclock : ClockFits o now)
    (hb : ∀ k (hk : k < hs.length), BringsNoEmptyPart o ul (after o ul subs ⟨n, []⟩ (hs.take k)) hs[k])
    (hlast : BringsNoEmptyPart o ul (after o ul subs ⟨n, []⟩ hs) (.datagram now data key rand)) :
    ending o ul now subs (after o ul subs ⟨n, []⟩ hs) data key rand = .returned := by
  have h0 : Solid (⟨n, []⟩ : Full c).transfers := by intro k x hx; cases hx
  have h1 := (datagram_solid o ul now subs _ data key rand (after_solid o ul subs hs _ h0 hb) hlast).1
  have h2 := C124_no_abort hc o ul now hclock subs (after o ul subs ⟨n, []⟩ hs) data key rand
  revert h1 h2
  cases ending o ul now subs (after o ul subs ⟨n, []⟩ hs) data key rand <;> simp

theorem emptyFirst_hang (sha : Bytes → Bytes) (t : Transfer.Table) (h : Bytes) (d : Bytes) (k : Nat)
    (hnew : t.get h = none) (hk : k ≠ 0) (hd : d ≠ []) :
    (Transfer.recvPart sha t ⟨h, d.length, 0, []⟩).2 = .none ∧
    (Transfer.recvPart sha (Transfer.recvPart sha t ⟨h, d.length, 0, []⟩).1 ⟨h, d.length, k, d⟩).2 = .hang := by
  have hlen : 0 < d.length := List.length_pos_iff.mpr hd
  have h1 : Transfer.recvPart sha t ⟨h, d.length, 0, []⟩ =
      (t.put h ⟨[(0, [])], 0, d.length⟩, .none) := by
    have : ¬ (0 = d.length) := by omega
    have h2 : ¬ (0 > d.length) := by omega
    simp [Transfer.recvPart, hnew, Transfer.addPart, Transfer.Transfer.new, AMap.put, AMap.erase, this, h2]
  refine ⟨by rw [h1], ?_⟩
  rw [h1]
  have hget : (t.put h (⟨[(0, [])], 0, d.length⟩ : Transfer.Transfer)).get h = some ⟨[(0, [])], 0, d.length⟩ :=
    AMap.get_put_self _ _ _
  have hcomb : ∀ (parts : AMap Nat Bytes), parts.get 0 = some [] → ∀ fuel,
      Transfer.combine parts d.length fuel 0 [] = .hang := by
    intro parts hp fuel
    induction fuel with
    | zero => rfl
    | succ f ih => simp [Transfer.combine, hlen, hp, ih]
  have hkeep : ((⟨[(0, [])], 0, d.length⟩ : Transfer.Transfer).parts.put k d).get 0 = some [] := by
    rw [AMap.get_put_ne _ _ (Ne.symm hk)]; rfl
  have hno : (AMap.get ([(0, [])] : AMap Nat Bytes) k).isSome = false := by
    simp [AMap.get, Ne.symm hk]
  simp [Transfer.recvPart, hget, Transfer.addPart, hno, Transfer.finish, hcomb _ hkeep]

/-- C124: every accepted datagram with an empty part at the start of a new transfer, and a second one that
makes up its announced length elsewhere, is never done with. Nothing is asked of the hash. -/
theorem C124_two_parts_stick (o : Opts c) (ul : Bool) (now : Nat) (subs : Event → Reply) (s : Full c)
    (data : Bytes) (key : c.Sec) (rand : Nat → Sender.Rand c) (l q : Bytes) (prio : Bool) (h d : Bytes) (k : Nat)
    (rest : List Message) (hnew : s.transfers.get h = none) (hk : k ≠ 0) (hd : d ≠ [])
    (hacc : (Receiver.handle o ul now s.node data key rand).2.1 =
      .accepted l q prio (.part h d.length 0 [] :: .part h d.length k d :: rest)) :
    ending o ul now subs s data key rand = .stuck := by
  unfold ending
  generalize Receiver.handle o ul now s.node data key rand = r at hacc ⊢
  obtain ⟨n, out, ds⟩ := r
  simp only [] at hacc
  subst hacc
  obtain ⟨h1, h2⟩ := emptyFirst_hang c.sha s.transfers h d k hnew hk hd
  generalize hr : Transfer.recvPart c.sha s.transfers ⟨h, d.length, 0, []⟩ = r1 at h1 h2
  obtain ⟨t1, x1⟩ := r1
  simp only [] at h1 h2
  subst h1
  generalize hr2 : Transfer.recvPart c.sha t1 ⟨h, d.length, k, d⟩ = r2 at h2
  obtain ⟨t2, x2⟩ := r2
  simp only [] at h2
  subst h2
  simp [allEnding, messageEnding, processMessage, hr, hr2]

/-- C124: never returning is not a matter of patience: with the transfer as the part leaves it, the loop over
its parts goes on for any number of steps. -/
theorem C124_stuck_is_forever (o : Opts c) (ul : Bool) (now : Nat) (subs : Event → Reply) (s : Full c) (l q : Bytes)
    (prio : Bool) (rand : Nat → Sender.Rand c) (m : Message)
    (h : messageEnding o ul now subs s l q prio rand m = .stuck) :
    ∃ hash total offset data T, m = .part hash total offset data ∧
      (processMessage o ul now subs s l q prio rand m).1.transfers.get hash = some T ∧
      ∀ fuel, Transfer.combine T.parts T.total fuel 0 [] = .hang := by
  cases m with
  | part hash total offset data =>
    refine ⟨hash, total, offset, data,
      (Transfer.addPart c.sha ((s.transfers.get hash).getD (Transfer.Transfer.new total)) offset data hash).1, rfl, ?_⟩
    have hh : (Transfer.recvPart c.sha s.transfers ⟨hash, total, offset, data⟩).2 = .hang := by
      unfold messageEnding at h
      simp only [] at h
      generalize Transfer.recvPart c.sha s.transfers ⟨hash, total, offset, data⟩ = r at h
      obtain ⟨t, res⟩ := r
      cases res with
      | hang => rfl
      | some buf =>
        simp only [] at h
        split at h
        · cases h
        · exact absurd h (wholeEnding_ne_stuck o ul now subs _ _ _ _ _ _)
      | _ => cases h
    have hadd : (Transfer.addPart c.sha ((s.transfers.get hash).getD (Transfer.Transfer.new total)) offset data hash).2 =
        .hang := by
      unfold Transfer.recvPart at hh
      simp only [] at hh
      split at hh
      · cases hh
      · assumption
      · exact hh
    have hput : Transfer.recvPart c.sha s.transfers ⟨hash, total, offset, data⟩ = (s.transfers.put hash
        (Transfer.addPart c.sha ((s.transfers.get hash).getD (Transfer.Transfer.new total)) offset data hash).1,
        .hang) := by
      unfold Transfer.recvPart
      simp only [hadd]
    refine ⟨?_, ?_⟩
    · unfold processMessage
      simp only [hput]
      exact AMap.get_put_self _ _ _
    · generalize (s.transfers.get hash).getD (Transfer.Transfer.new total) = T at hadd
      intro fuel
      apply Transfer.combine_hang_forever
      unfold Transfer.addPart at hadd ⊢
      simp only [] at hadd ⊢
      split at hadd
      · cases hadd
      · split at hadd
        · rename_i h1 h2
          rw [if_neg h1, if_pos h2]
          unfold Transfer.finish at hadd
          split at hadd
          · split at hadd <;> cases hadd
          · cases hadd
          · assumption
        · split at hadd <;> cases hadd
  | _ =>
    unfold messageEnding at h
    exact absurd h (wholeEnding_ne_stuck o ul now subs _ _ _ _ _ _)

/-! ### Broadcasts and RLDP -/

/-- C124: the date of a broadcast, chosen by its author, makes a debug build panic exactly if it overflows
together with the timeout; a release build never panics there. -/
theorem C124_broadcast_date (e : Overlay.Env) (date now : Nat) :
    Overlay.isOutdated e date now = none ↔ e.build = .debug ∧ 2 ^ 32 ≤ date + e.timeout % 2 ^ 32 := by
  unfold Overlay.isOutdated addU32
  split
  · simp; omega
  · cases hb : e.build
    · simp; omega
    · simp

/-- C124: the number of the part in a `Complete`, chosen by the other side, makes a debug build panic
exactly if it is the largest 32 bit number; a release build never panics there. -/
theorem C124_complete_part (b : Build) (s : Rldp.OutState) (part : Nat) (hp : part < 2 ^ 32) :
    Rldp.OutState.complete b s part = none ↔ b = .debug ∧ part = 2 ^ 32 - 1 := by
  unfold Rldp.OutState.complete Rldp.OutState.setPart addU32 subU32
  by_cases h : part + 1 < 2 ^ 32
  · simp [h]; omega
  · have : part = 2 ^ 32 - 1 := by omega
    subst this
    cases b <;> simp

-- such a date and such a part number
example (z : Rldp.Zstd) : Overlay.isOutdated ⟨.debug, z, 60, 10⟩ (2 ^ 32 - 1) 0 = none :=
  (C124_broadcast_date _ _ _).mpr ⟨rfl, show 2 ^ 32 ≤ 2 ^ 32 - 1 + 60 % 2 ^ 32 by decide⟩
example (s : Rldp.OutState) : Rldp.OutState.complete .debug s (2 ^ 32 - 1) = none :=
  (C124_complete_part _ s _ (by decide)).mpr ⟨rfl, rfl⟩

/-! ### The witness -/

open Verif.Delivery

/-- A node that knows nobody. -/
def lonely : Full Crypto.toy := ⟨⟨[(toyPair.id true, [])], [], 0, [], []⟩, []⟩

/-- An empty part and one that makes up the announced length. -/
def trap : List Message :=
  [.part (List.replicate 32 9) 10 0 [], .part (List.replicate 32 9) 10 1 (List.replicate 10 7)]

def trapRand : Nat → Sender.Rand Crypto.toy := fun k => ⟨List.replicate 10 (UInt8.ofNat k), (11 : UInt8)⟩

/-- A handshake packet of a stranger with the given messages. -/
def strangersDatagram (ms : List Message) : Bytes :=
  match Sender.sendPacket (toyPair.opts false) false 130 (toyPair.id true)
    (Peer.new 120 ⟨1, 2, 3, 4, 5⟩ (toyPair.sec true) (toyPair.chan false)) (.random (toyPair.sec false))
    (.pair (ms.flatMap writeMessage)) (trapRand 0) with
  | .ok (_, d) => d
  | .error _ => []

theorem trap_accepted : (Receiver.handle (toyPair.opts true) false 131 lonely.node (strangersDatagram trap) (7 : UInt8)
    trapRand).2.1 = .accepted (toyPair.id true) (toyPair.id false) false trap := by decide +kernel

/-- One datagram of a stranger. -/
theorem trap_stuck : ending (toyPair.opts true) false 131 (fun _ => .done) lonely (strangersDatagram trap) (7 : UInt8)
    trapRand = .stuck :=
  C124_two_parts_stick _ _ _ _ _ _ _ _ (toyPair.id true) (toyPair.id false) false (List.replicate 32 9)
    (List.replicate 10 7) 1 [] rfl (by decide) (by decide) trap_accepted

/-- C124: the full claim is false: one datagram, from a stranger, to a node that has just started. -/
theorem C124_full_false : ¬ C124_full := by
  intro h
  have := h Crypto.toy Crypto.toy_lawful (toyPair.opts true) false (fun _ => .done) lonely.node [] 131
    (strangersDatagram trap) (7 : UInt8) trapRand (by intro _; decide)
  rw [show after (toyPair.opts true) false (fun _ => .done) ⟨lonely.node, []⟩ [] = lonely from rfl, trap_stuck] at this
  cases this

/-- The same parts without the empty one: the handling of every datagram returns. -/
def fairParts : List Message :=
  [.part (List.replicate 32 9) 10 0 [1], .part (List.replicate 32 9) 10 1 (List.replicate 9 7)]

theorem fair_accepted : (Receiver.handle (toyPair.opts true) false 131 lonely.node (strangersDatagram fairParts)
    (7 : UInt8) trapRand).2.1 = .accepted (toyPair.id true) (toyPair.id false) false fairParts := by decide +kernel

theorem fair_brings : BringsNoEmptyPart (toyPair.opts true) false lonely
    (.datagram 131 (strangersDatagram fairParts) (7 : UInt8) trapRand) := by
  intro l q prio ms hacc
  rw [fair_accepted] at hacc
  cases hacc
  intro m hm
  simp only [fairParts, List.mem_cons, List.not_mem_nil, or_false] at hm
  rcases hm with rfl | rfl <;> simp [NotEmptyPart]

theorem brings_congr {o : Opts c} {ul : Bool} {s s' : Full c} (h : s.node = s'.node) (x : Happening c)
    (hb : BringsNoEmptyPart o ul s x) : BringsNoEmptyPart o ul s' x := by
  cases x with
  | datagram now data key rand => simp only [BringsNoEmptyPart] at hb ⊢; rwa [← h]
  | _ => trivial

theorem after_other (o : Opts c) (ul : Bool) (subs : Event → Reply) (s : Full c) (x y : Happening c) (n : State c) :
    n = (after o ul subs s [x, y, .other n]).node := rfl

-- C124_no_abort, C124_returns_partial: the packet with the fair parts arrives, its transfer times out, …
example : ending (toyPair.opts true) false 131 (fun _ => .done) lonely (strangersDatagram fairParts) (7 : UInt8)
    trapRand = .returned :=
  C124_returns_partial Crypto.toy_lawful (toyPair.opts true) false (fun _ => .done) lonely.node [] 131
    (strangersDatagram fairParts) (7 : UInt8) trapRand (by intro _; decide) (by intro k hk; cases hk) fair_brings
example := C124_returns_partial Crypto.toy_lawful (toyPair.opts true) false (fun _ => .done) lonely.node
  [.datagram 131 (strangersDatagram fairParts) (7 : UInt8) trapRand, .timeout (List.replicate 32 9), .other lonely.node]
  131 (strangersDatagram fairParts) (7 : UInt8) trapRand (by intro _; decide)
  (by
    intro k hk
    match k, hk with
    | 0, _ => exact fair_brings
    | 1, _ => trivial
    | 2, _ => trivial)
  (brings_congr (s := lonely) (after_other _ _ _ _ _ _ _) _ fair_brings)
example := C124_no_abort Crypto.toy_lawful (toyPair.opts true) false 131 (by intro _; decide) (fun _ => .done) lonely
  (strangersDatagram trap) (7 : UInt8) trapRand

-- C124_stuck_is_forever
example := C124_stuck_is_forever (toyPair.opts true) false 131 (fun _ => .done)
  ⟨lonely.node, [(List.replicate 32 9, ⟨[(0, [])], 0, 10⟩)]⟩ (toyPair.id true) (toyPair.id false) false trapRand
  (.part (List.replicate 32 9) 10 1 (List.replicate 10 7)) (by decide +kernel)

end Verif.Process
