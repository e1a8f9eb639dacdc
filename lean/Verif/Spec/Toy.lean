import Verif.Spec.Example
import Verif.Model.Crypto
/-!
# A concrete instance of the cryptographic primitives

Used only by the non-vacuity examples: it meets the laws assumed of the primitives and is executable by the kernel.  It is of
course no cipher (the plaintext is in the clear, followed by a checksum of all inputs).
-/
namespace Volaris.Example

/-- A polynomial checksum of a byte string. -/
def checksum (bs : Bytes) : Nat := bs.foldl (fun a b => (a * 257 + b.toNat + 1) % 2305843009213693951) 1

/-- 16 bytes of checksum over all inputs of the AEAD. -/
def toyTag (key nonce aad msg : Bytes) : Bytes :=
  let n := checksum (key ++ nonce ++ aad ++ msg)
  [UInt8.ofNat n, UInt8.ofNat (n / 2 ^ 8), UInt8.ofNat (n / 2 ^ 16), UInt8.ofNat (n / 2 ^ 24),
   UInt8.ofNat (n / 2 ^ 32), UInt8.ofNat (n / 2 ^ 40), UInt8.ofNat (n / 2 ^ 48), UInt8.ofNat (n / 2 ^ 56),
   1, 2, 3, 4, 5, 6, 7, 8]

def toyDec (key nonce aad ct : Bytes) : Option Bytes :=
  let p := ct.take (ct.length - 16)
  if ct = p ++ toyTag key nonce aad p then some p else none

/-- Password "hash": the password followed by parameters and salt, cut or padded to 32 bytes. -/
def toyKdf (f : Kdf) (password salt : Bytes) : Bytes :=
  let p := match f with
    | .argon2id m i l => [UInt8.ofNat m, UInt8.ofNat (m / 2 ^ 13), UInt8.ofNat i, UInt8.ofNat l]
    | .balloon s t l => [UInt8.ofNat (s / 2 ^ 10), UInt8.ofNat (s / 2 ^ 14), UInt8.ofNat t, UInt8.ofNat (l + 100)]
  (p ++ password ++ salt ++ List.replicate 32 0).take 32

def toy (ctrMax : Nat := 2 ^ 31 - 1) : Crypto where
  enc := fun _ key nonce aad msg => some (msg ++ toyTag key nonce aad msg)
  dec := fun _ key nonce aad ct => toyDec key nonce aad ct
  kdf := fun f password salt => some (toyKdf f password salt)
  ctrMax := ctrMax

theorem toy_lawful (n : Nat) (hn : n < 2 ^ 31) : (toy n).Lawful where
  dec_enc := by
    intro a k n ad p c h
    have hc : c = p ++ toyTag k n ad p := (Option.some.inj h).symm
    subst hc
    have : (p ++ toyTag k n ad p).take ((p ++ toyTag k n ad p).length - 16) = p := by simp [toyTag]
    simp only [toy, toyDec, this, if_true]
  enc_dec := by
    intro a k n ad p c h
    simp only [toy, toyDec] at h
    split at h
    · next hc => have := Option.some.inj h; rw [this] at hc; exact congrArg some hc.symm
    · simp at h
  enc_len := by
    intro a k n ad p c h
    have hc : c = p ++ toyTag k n ad p := (Option.some.inj h).symm
    subst hc; simp [toyTag]
  kdf_len := by
    intro f p s k h
    have hk : k = toyKdf f p s := (Option.some.inj h).symm
    subst hk
    simp [toyKdf]
    omega
  ctr_lt := hn

theorem toy_dec_short {a : Algorithm} {m : Nat} {k n ad c : Bytes} (h : c.length < 16) :
    (toy m).dec a k n ad c = none := by
  simp only [toy, toyDec]
  rw [if_neg]
  intro hc
  have := congrArg List.length hc
  simp [toyTag] at this
  omega

end Volaris.Example
