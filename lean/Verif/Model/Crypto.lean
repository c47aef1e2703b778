import Verif.Model.Num

/-!
# Cryptographic primitives (external crates) as parameters

Nothing is assumed about them globally: theorems take a `Crypto` and, where needed, the laws
`Crypto.Lawful` as a hypothesis. `Crypto.toy` shows that the laws are satisfiable.
-/
namespace Verif

/-- SHA-256, AES-256-CTR and ed25519/x25519 key agreement and signatures. -/
structure Crypto where
  /-- ed25519 public keys -/
  Pub : Type
  /-- ed25519 secret keys -/
  Sec : Type
  /-- `sha2::Sha256::digest` -/
  sha : Bytes → Bytes
  /-- `Aes256Ctr::new(key, iv)` then `apply_keystream` on the data from position 0 -/
  aes : (key iv data : Bytes) → Bytes
  /-- `PublicKey::from(&SecretKey)` -/
  pubOf : Sec → Pub
  /-- `PublicKey::as_bytes` -/
  pubBytes : Pub → Bytes
  /-- `PublicKey::from_bytes` -/
  decodePub : Bytes → Option Pub
  /-- `compute_shared_secret` -/
  dh : Sec → Pub → Bytes
  /-- `PublicKey::verify_raw(message, signature)` -/
  verify : Pub → (msg sig : Bytes) → Bool
  /-- `SecretKey::sign_raw(message)` -/
  sign : Sec → Bytes → Bytes

/-- The laws of the primitives: sizes, the keystream is its own inverse, key agreement is symmetric,
signatures verify. None of them is a security assumption. -/
structure Crypto.Lawful (c : Crypto) : Prop where
  sha_length : ∀ d, (c.sha d).length = 32
  aes_length : ∀ k iv d, (c.aes k iv d).length = d.length
  aes_inv : ∀ k iv d, c.aes k iv (c.aes k iv d) = d
  pub_length : ∀ p, (c.pubBytes p).length = 32
  decode_pub : ∀ p, c.decodePub (c.pubBytes p) = some p
  dh_length : ∀ s p, (c.dh s p).length = 32
  dh_comm : ∀ a b, c.dh a (c.pubOf b) = c.dh b (c.pubOf a)
  sign_length : ∀ s m, (c.sign s m).length = 64
  sign_verify : ∀ s m, c.verify (c.pubOf s) m (c.sign s m) = true

/-- XOR with a repeated byte; used only in the toy instance. -/
def xorByte (k : UInt8) (d : Bytes) : Bytes := d.map (k ^^^ ·)

/-- A toy instance (not secure): one-byte "keys" stored as numbers, "SHA" is the sum of the bytes,
signatures are the padded hash. -/
def Crypto.toy : Crypto where
  Pub := UInt8
  Sec := UInt8
  sha d := leBytes 32 (d.foldl (fun a b => 31 * a + b.toNat + 1) 0)
  aes k iv d := xorByte ((k.foldl (· + ·) 0) + (iv.foldl (· + ·) 0)) d
  pubOf s := s
  pubBytes p := leBytes 32 p.toNat
  decodePub b := some (UInt8.ofNat (ofLE b))
  dh s p := leBytes 32 (s.toNat * p.toNat)
  verify p m s := s == leBytes 64 (p.toNat + 256 * m.length)
  sign s m := leBytes 64 (s.toNat + 256 * m.length)

end Verif
