import Verif.Model.Compression
import Verif.Proofs.Num

/-!
# C36: RLDP compression
-/
namespace Verif.Rldp

/-- What `decompress` does with two frames and the tag. -/
theorem decompress_frames {z : Zstd} (h : z.Lawful) (a : Bytes) (n : Nat) (hn : n < 2 ^ 32) :
    decompress z (z.encode a ++ z.encode (beBytes 4 n) ++ [0x80]) =
      if n = a.length then some a else none := by
  unfold decompress
  have h1 : (z.encode a ++ z.encode (beBytes 4 n) ++ [0x80]).getLast? = some 0x80 := by simp
  rw [if_neg (by simp), List.dropLast_concat, h.decode_two]
  have hl : (beBytes 4 n).length = 4 := by simp [beBytes]
  simp only [List.length_append, hl]
  rw [if_neg (by omega), Nat.add_sub_cancel, List.drop_left, List.take_left]
  have : ofBE (beBytes 4 n) = n := by
    unfold ofBE beBytes
    rw [List.reverse_reverse, ofLE_leBytes_of_lt (by simpa using hn)]
  rw [this]
  by_cases e : n = a.length
  · rw [if_neg (by simpa using e), if_pos e]
  · rw [if_pos e, if_neg e]

/-- C36 as stated: what was compressed comes back, and what was sent uncompressed arrives unchanged. -/
def C36_full (z : Zstd) : Prop :=
  (∀ d : Bytes, d.length < 2 ^ 32 → received z (compress z d) = d) ∧ ∀ d : Bytes, received z d = d

/-- C36, first half: every payload above the threshold survives compression. -/
theorem C36_round_trip_partial {z : Zstd} (h : z.Lawful) (d : Bytes) (h256 : 256 < d.length)
    (hd : d.length < 2 ^ 32) :
    decompress z (compress z d) = some d ∧ received z (compress z d) = d := by
  have : decompress z (compress z d) = some d := by
    unfold compress
    rw [if_neg (by omega), Nat.mod_eq_of_lt hd, decompress_frames h d _ hd, if_pos rfl]
  exact ⟨this, by rw [received, this]; rfl⟩

/-- C36: payloads up to the threshold are sent as they are. -/
theorem C36_small_unchanged_partial (z : Zstd) (d : Bytes) (h : d.length ≤ 256) : compress z d = d :=
  if_pos h

/-- C36, second half, as far as it is true: a payload sent uncompressed arrives unchanged if it does not
end in the tag byte. -/
theorem C36_untagged_unchanged_partial (z : Zstd) (d : Bytes) (h : d.getLast? ≠ some 0x80) :
    received z d = d := by
  unfold received decompress
  rw [if_pos h]
  rfl

/-- C36: more exactly, it is changed only into what it is a compression of. -/
theorem C36_changed_only_by_decoding_partial (z : Zstd) (d : Bytes) (h : received z d ≠ d) :
    ∃ w, d = w ++ [0x80] ∧ z.decode w = some (received z d ++ beBytes 4 (received z d).length) := by
  unfold received at h ⊢
  cases hd : decompress z d with
  | none => rw [hd] at h; exact absurd rfl h
  | some x =>
    simp only [Option.getD_some]
    unfold decompress at hd
    split at hd
    · cases hd
    rename_i hlast
    cases hz : z.decode d.dropLast with
    | none => rw [hz] at hd; cases hd
    | some y =>
      rw [hz] at hd
      simp only at hd
      split at hd
      · cases hd
      rename_i h4
      split at hd
      · cases hd
      rename_i hlen
      simp only [Option.some.injEq] at hd
      simp only [ne_eq, Decidable.not_not] at hlast hlen
      have hne : d ≠ [] := by rintro rfl; simp at hlast
      refine ⟨d.dropLast, ?_, ?_⟩
      · have hx : d.getLast hne = 0x80 := by
          rw [List.getLast?_eq_some_getLast hne] at hlast
          simpa using hlast
        rw [← hx]
        exact (List.dropLast_concat_getLast hne).symm
      · have hxl : x.length = y.length - 4 := by rw [← hd, List.length_take]; omega
        rw [hxl, ← hlen, hz]
        congr 1
        have h1 : beBytes 4 (ofBE (y.drop (y.length - 4))) = y.drop (y.length - 4) := by
          unfold beBytes ofBE
          have hl4 : (y.drop (y.length - 4)).reverse.length = 4 := by simp; omega
          have := leBytes_ofLE (y.drop (y.length - 4)).reverse
          rw [hl4] at this
          rw [this, List.reverse_reverse]
        rw [h1, ← hd, List.take_append_drop]

/-- C36 as stated is false, for every zstd: the bytes of a compressed empty payload, sent as an
uncompressed payload, arrive as the empty payload. -/
theorem C36_full_false (z : Zstd) (h : z.Lawful) : ¬ C36_full z := by
  intro ⟨_, h2⟩
  have h1 := decompress_frames h [] 0 (by decide)
  rw [if_pos (show 0 = ([] : Bytes).length from rfl)] at h1
  have h3 := h2 (z.encode [] ++ z.encode (beBytes 4 0) ++ [0x80])
  rw [received, h1] at h3
  simp at h3

/-- C36: and payloads of 4 GiB or more do not come back. -/
theorem C36_huge_payload_partial {z : Zstd} (h : z.Lawful) (d : Bytes) (hd : 2 ^ 32 ≤ d.length) :
    decompress z (compress z d) = none := by
  unfold compress
  rw [if_neg (by omega), decompress_frames h d _ (Nat.mod_lt _ (by decide))]
  rw [if_neg]
  have := Nat.mod_lt d.length (show 0 < 2 ^ 32 by decide)
  omega

/-! ### A lawful zstd -/

/-- Toy frames: each byte marked with 1, then 0. -/
def toyEncode : Bytes → Bytes
  | [] => [0]
  | b :: bs => 1 :: b :: toyEncode bs

/-- Decodes any number of frames. -/
def toyDecode : Bytes → Option Bytes
  | [] => some []
  | [x] => if x = 0 then some [] else none
  | x :: y :: rest =>
    if x = 0 then toyDecode (y :: rest)
    else match toyDecode rest with
      | some d => some (y :: d)
      | none => none

def Zstd.toy : Zstd := ⟨toyEncode, toyDecode⟩

theorem toyDecode_encode (a r : Bytes) :
    toyDecode (toyEncode a ++ r) = (toyDecode r).map (a ++ ·) := by
  induction a with
  | nil =>
    cases r with
    | nil => rfl
    | cons y ys =>
      simp only [toyEncode, List.cons_append, List.nil_append, toyDecode]
      rw [if_pos trivial]
      cases toyDecode (y :: ys) <;> rfl
  | cons b bs ih =>
    simp only [toyEncode, List.cons_append, toyDecode]
    rw [if_neg (by decide), ih]
    cases toyDecode r <;> rfl

theorem Zstd.toy_lawful : Zstd.toy.Lawful := by
  constructor
  intro a b
  show toyDecode (toyEncode a ++ toyEncode b) = some (a ++ b)
  rw [toyDecode_encode]
  have := toyDecode_encode b []
  rw [List.append_nil] at this
  rw [this]
  simp [toyDecode]

/-- A payload of 300 bytes is really compressed and comes back; a short tagged one is changed. -/
example : (compress Zstd.toy (List.replicate 300 5)).getLast? = some 0x80 ∧
    received Zstd.toy (compress Zstd.toy (List.replicate 300 5)) = List.replicate 300 5 ∧
    received Zstd.toy (toyEncode [] ++ toyEncode [0, 0, 0, 0] ++ [0x80]) = [] := by decide +kernel

-- C36_round_trip_partial, C36_small_unchanged_partial, C36_untagged_unchanged_partial
example := C36_round_trip_partial Zstd.toy_lawful (List.replicate 300 5)
  (by rw [List.length_replicate]; omega) (by rw [List.length_replicate]; omega)
example : compress Zstd.toy (List.replicate 256 5) = List.replicate 256 5 :=
  C36_small_unchanged_partial _ _ (by rw [List.length_replicate]; omega)
example : received Zstd.toy [0x80, 1] = [0x80, 1] := C36_untagged_unchanged_partial _ _ (by decide)

-- C36_changed_only_by_decoding_partial: such an answer does change on the way
example := C36_changed_only_by_decoding_partial Zstd.toy (toyEncode [] ++ toyEncode [0, 0, 0, 0] ++ [0x80]) (by decide +kernel)

-- C36_full_false: there is a lawful compressor
example := C36_full_false Zstd.toy Zstd.toy_lawful

end Verif.Rldp
