import Verif.Model.Address
import Verif.Proofs.Num

/-!
# C23, C24: addresses
-/
namespace Verif.Props
open Verif Verif.Address

/-- C23: every IPv4 socket address stored for a peer is read back unchanged. -/
theorem C23_pack_unpack (s : SockAddr) : unpack (pack s) = s := by
  obtain ⟨a, b, c, d, port⟩ := s
  have hp := port.toNat_lt
  have hl : (SockAddr.octets ⟨a, b, c, d, port⟩ ++ leBytes 2 port.toNat ++ [0, 0]).length = 8 := by
    simp [SockAddr.octets]
  have h := leBytes_ofLE (SockAddr.octets ⟨a, b, c, d, port⟩ ++ leBytes 2 port.toNat ++ [0, 0])
  rw [hl] at h
  simp only [unpack, pack, h]
  simp only [SockAddr.octets, leBytes]
  simp only [List.cons_append, List.nil_append]
  simp only [SockAddr.mk.injEq]
  refine ⟨rfl, rfl, rfl, rfl, ?_⟩
  have : ofLE [UInt8.ofNat (port.toNat % 256), UInt8.ofNat (port.toNat / 256 % 256)] = port.toNat := by
    have := ofLE_leBytes_of_lt (k := 2) (n := port.toNat) (by omega)
    simpa [leBytes] using this
  show UInt16.ofNat (ofLE [UInt8.ofNat (port.toNat % 256), UInt8.ofNat (port.toNat / 256 % 256)]) = port
  rw [this]
  simp

/-- The packed form fits the 64-bit atomic it is stored in. -/
theorem C23_pack_fits (s : SockAddr) : pack s < 2 ^ 48 := by
  obtain ⟨a, b, c, d, port⟩ := s
  have h1 := ofLE_lt (SockAddr.octets ⟨a, b, c, d, port⟩ ++ leBytes 2 port.toNat)
  have h2 : ∀ x : Bytes, ofLE (x ++ [0, 0]) = ofLE x := by
    intro x
    induction x with
    | nil => rfl
    | cons y ys ih => simp [ofLE, ih]
  simp only [pack, h2]
  simpa [SockAddr.octets] using h1

/-- The same through the wire structure used in address lists. -/
theorem C23_address_roundtrip (s : SockAddr) : ofAddr (toAddr s) = s := by
  obtain ⟨a, b, c, d, port⟩ := s
  have h := beBytes_ofBE (SockAddr.octets ⟨a, b, c, d, port⟩)
  have hl : (SockAddr.octets ⟨a, b, c, d, port⟩).length = 4 := rfl
  rw [hl] at h
  simp only [ofAddr, toAddr, h]
  simp [SockAddr.octets]

/-- Different addresses are packed differently. -/
theorem C23_pack_injective (s t : SockAddr) (h : pack s = pack t) : s = t := by
  have := congrArg unpack h
  rwa [C23_pack_unpack, C23_pack_unpack] at this

example : pack ⟨127, 0, 0, 1, 23123⟩ = 127 + 2 ^ 24 + 23123 * 2 ^ 32 := by decide

/-! ## C24 -/

/-- When an address list is acceptable at time `now`. -/
def listValid (now tolerance : Nat) (l : AddrList) (a : Addr) : Prop :=
  l.address = some a ∧ l.reinitDate ≤ now + tolerance ∧ (l.expireAt = 0 ∨ now ≤ l.expireAt)

/-- Full claim: the address is returned exactly for valid lists, and parsing never aborts. -/
def C24_full : Prop :=
  ∀ (m : Build) (now tolerance : Nat) (l : AddrList), now < 2 ^ 32 → tolerance < 2 ^ 32 →
    l.reinitDate < 2 ^ 32 → l.expireAt < 2 ^ 32 →
    parse m now tolerance l ≠ .panic ∧
    ∀ s, parse m now tolerance l = .ok s ↔ ∃ a, listValid now tolerance l a ∧ s = ofAddr a

/-- False: `now + tolerance` is computed on `u32` (address_list.rs:14). -/
theorem C24_full_false : ¬ C24_full := by
  intro h
  have := h .debug (2 ^ 32 - 1) 60 ⟨some ⟨1, 1⟩, 0, 0, 0⟩ (by decide) (by decide) (by decide) (by decide)
  exact absurd this.1 (by decide)

/-- In a release build the sum wraps instead, and valid lists are refused. -/
theorem C24_release_refuses_valid :
    parse .release (2 ^ 32 - 1) 60 ⟨some ⟨1, 1⟩, 0, 100, 0⟩ = .tooNew ∧
    listValid (2 ^ 32 - 1) 60 ⟨some ⟨1, 1⟩, 0, 100, 0⟩ ⟨1, 1⟩ :=
  ⟨by decide, rfl, by decide, .inl rfl⟩

/-- In both build modes, at any time: an address is returned only for a valid list, and it is the
list's address. -/
theorem C24_only_valid (m : Build) (now tolerance : Nat) (l : AddrList) (s : SockAddr)
    (h : parse m now tolerance l = .ok s) : ∃ a, listValid now tolerance l a ∧ s = ofAddr a := by
  unfold parse at h
  cases ha : l.address with
  | none => simp [ha] at h
  | some a =>
    simp only [ha] at h
    cases hs : addU32 m now tolerance with
    | none => simp [hs] at h
    | some limit =>
      simp only [hs] at h
      split at h
      · cases h
      · split at h
        · cases h
        · rename_i h1 h2
          cases h
          refine ⟨a, ⟨ha, ?_, ?_⟩, rfl⟩
          · unfold addU32 at hs
            split at hs
            · cases hs; omega
            · cases m
              · cases hs
              · simp only [Option.some_inj] at hs; omega
          · by_cases hz : l.expireAt = 0
            · exact .inl hz
            · right
              by_cases hlt : l.expireAt < now
              · exact absurd ⟨hz, hlt⟩ h2
              · omega

/-- Partial: whenever `now + tolerance` fits in 32 bits the full claim holds. (Missing: clocks
within `tolerance` of 2^32 seconds, year 2106.) -/
theorem C24_exact_partial (m : Build) (now tolerance : Nat) (l : AddrList)
    (hfit : now + tolerance < 2 ^ 32) :
    parse m now tolerance l ≠ .panic ∧
    ∀ s, parse m now tolerance l = .ok s ↔ ∃ a, listValid now tolerance l a ∧ s = ofAddr a := by
  have hadd := addU32_eq m hfit
  refine ⟨?_, ?_⟩
  · unfold parse
    cases l.address with
    | none => simp
    | some a =>
      simp only [hadd]
      split
      · simp
      · split <;> simp
  · intro s
    refine ⟨C24_only_valid m now tolerance l s, ?_⟩
    rintro ⟨a, ⟨h1, h2, h3⟩, rfl⟩
    have e1 : ¬ l.reinitDate > now + tolerance := by omega
    have e2 : ¬ (l.expireAt ≠ 0 ∧ l.expireAt < now) := by omega
    simp only [parse, h1, hadd, e1, e2, if_false]

example : parse .debug 1000 60 ⟨some ⟨0x7f000001, 80⟩, 5, 1060, 1000⟩ = .ok ⟨127, 0, 0, 1, 80⟩ ∧
    parse .debug 1000 60 ⟨some ⟨0x7f000001, 80⟩, 5, 1061, 0⟩ = .tooNew ∧
    parse .debug 1000 60 ⟨some ⟨0x7f000001, 80⟩, 5, 0, 999⟩ = .expired ∧
    parse .debug 1000 60 ⟨none, 5, 0, 0⟩ = .listIsEmpty := by decide

example := C24_only_valid .debug 1000 60 ⟨some ⟨0x7f000001, 80⟩, 5, 1060, 1000⟩ ⟨127, 0, 0, 1, 80⟩ (by decide)

end Verif.Props
