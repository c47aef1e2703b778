import Verif.Model.AMap
import Verif.Model.Bytes

/-!
# Model of multipart transfers: `src/adnl/transfer.rs`, the part branch of `process_message`
(`src/adnl/node/receiver.rs:188-256`) and the splitting in `send_message`
(`src/adnl/node/sender.rs:140-202`).
-/
namespace Verif.Transfer

/-- `Transfer` (transfer.rs:14-23). `timings` is not part of this model. -/
structure Transfer where
  parts : AMap Nat Bytes
  received : Nat
  total : Nat

/-- `Transfer::new` (transfer.rs:27-34). -/
def Transfer.new (total : Nat) : Transfer := ⟨[], 0, total⟩

/-- Result of joining the parts (transfer.rs:83-93). -/
inductive Combined where
  | done (buf : Bytes)
  | missing
  /-- the `while` loop does not end -/
  | hang
deriving DecidableEq

/-- The `while received < self.total_len` loop (transfer.rs:85-93) with a step budget. -/
def combine (parts : AMap Nat Bytes) (total : Nat) : (fuel pos : Nat) → (buf : Bytes) → Combined
  | 0, _, _ => .hang
  | fuel + 1, pos, buf =>
    if pos < total then
      match parts.get pos with
      | some d => combine parts total fuel (pos + d.length) (buf ++ d)
      | none => .missing
    else .done buf

/-- Result of `add_part`. `hang` means the call never returns. -/
inductive Res where
  | none                      -- Ok(None)
  | some (buf : Bytes)        -- Ok(Some(buffer))
  | tooMuch                   -- Err(ReceivedTooMuch)
  | partMissing               -- Err(PartMissing)
  | invalidHash               -- Err(InvalidHash)
  | hang
deriving DecidableEq

/-- The end of `add_part` once the received length was found equal (transfer.rs:82-102). The step
budget `total + 1` is enough whenever the loop ends at all (`Proofs/Transfer.lean`,
`combine_hang_forever`). -/
def finish (sha : Bytes → Bytes) (parts : AMap Nat Bytes) (total : Nat) (id : Bytes) : Res :=
  match combine parts total (total + 1) 0 [] with
  | .done buf => if sha buf = id then .some buf else .invalidHash
  | .missing => .partMissing
  | .hang => .hang

/-- `Transfer::add_part` (transfer.rs:45-115). `received_len` is unbounded here (`usize` would
need 2^64 bytes in memory to wrap). `sha` is SHA-256. -/
def addPart (sha : Bytes → Bytes) (t : Transfer) (offset : Nat) (data : Bytes) (id : Bytes) :
    Transfer × Res :=
  let parts := t.parts.put offset data                          -- line 52: insert overwrites
  if (t.parts.get offset).isSome then ({ t with parts := parts }, .none)
  else
    let received := t.received + data.length                    -- line 58
    if received = t.total then                                  -- lines 62-70: CAS succeeds
      (⟨parts, t.total * 2, t.total⟩, finish sha parts t.total id)
    else if received > t.total then (⟨parts, received, t.total⟩, .tooMuch)
    else (⟨parts, received, t.total⟩, .none)

/-- ADNL `Message::Part` (proto/adnl.rs:310-317). -/
structure Part where
  hash : Bytes
  total : Nat
  offset : Nat
  data : Bytes
deriving DecidableEq

/-- `incoming_transfers` (adnl/node/mod.rs:130). -/
abbrev Table := AMap Bytes Transfer

/-- The `Part` branch of `process_message` (receiver.rs:197-253): look up or create the transfer,
add the part, drop the transfer on success or error (a call that never returns leaves it where it is).
Expiry of old transfers is `expire` below. -/
def recvPart (sha : Bytes → Bytes) (tbl : Table) (p : Part) : Table × Res :=
  let t := (tbl.get p.hash).getD (Transfer.new p.total)
  let r := addPart sha t p.offset p.data p.hash
  match r.2 with
  | .none => (tbl.put p.hash r.1, .none)
  | .hang => (tbl.put p.hash r.1, .hang)
  | x => (tbl.erase p.hash, x)

/-- Processing a list of parts, returning all results. -/
def recvParts (sha : Bytes → Bytes) (tbl : Table) : List Part → Table × List Res
  | [] => (tbl, [])
  | p :: ps =>
    let r := recvPart sha tbl p
    let rs := recvParts sha r.1 ps
    (rs.1, r.2 :: rs.2)

/-- The timeout task of a transfer (receiver.rs:215-230) removes it by id. -/
def expire (tbl : Table) (id : Bytes) : Table := tbl.erase id

/-- `build_part_message` (sender.rs:141-162): the part and the new offset. Note that `len` is the
*end* position but is added to the offset. -/
def buildPart (data hash : Bytes) (maxSize offset : Nat) : Part × Nat :=
  let len := min data.length (offset + maxSize)
  (⟨hash, data.length % 2 ^ 32, offset % 2 ^ 32,
      if offset < len then slice data offset len else []⟩, offset + len)

/-- The loop `while offset < data.len()` (sender.rs:188-199). -/
def splitLoop (data hash : Bytes) (offset : Nat) : List Part :=
  if offset < data.length then
    (buildPart data hash 1024 offset).1 ::
      splitLoop data hash (buildPart data hash 1024 offset).2
  else []
termination_by data.length - offset
decreasing_by simp only [buildPart]; omega

/-- All parts sent for the serialised message `data` (sender.rs:164-199). `additional` is the size
of the attached channel message (40 `CreateChannel` or 72 `ConfirmChannel`), if any; 40 is
`MSG_PART_PREFIX_SIZE`. -/
def split (data hash : Bytes) (additional : Option Nat) : List Part :=
  match additional with
  | some a =>
    let r := buildPart data hash (1024 - 40 - a) 0
    r.1 :: splitLoop data hash r.2
  | none => splitLoop data hash 0

end Verif.Transfer
