import Verif.Spec.Header
/-!
# Concrete worlds and headers used by the non-vacuity examples
-/
namespace Volaris.Example

/-- A world in which handle `i` is open at the start of file `i`, whose content is `f i`; no faults, the random
tape is 1, 2, 3, ... -/
def world (f : Nat → Bytes) : World where
  file := f
  fd := fun i => { ino := i, pos := 0 }
  nextIno := 1000
  nextFd := 1000
  dir := []
  sched := []
  rng := fun i => UInt8.ofNat (i + 1)
  stdin := []
  tty := []
  env := none
  log := []

/-- One content for every file. -/
def world1 (c : Bytes) : World := world fun _ => c

/-- A keyslot for AES-256-GCM. -/
def slotA : Keyslot where
  hashAlgorithm := .argon2id 3
  encryptedKey := List.replicate 48 7
  nonce := List.replicate 12 8
  salt := List.replicate 16 9

def slotB : Keyslot where
  hashAlgorithm := .blake3Balloon 5
  encryptedKey := List.replicate 48 17
  nonce := List.replicate 12 18
  salt := List.replicate 16 19

theorem slotA_ok : Spec.SlotOk .aes256Gcm slotA := ⟨rfl, rfl, rfl, by simp [slotA, Spec.supportedHashes]⟩
theorem slotB_ok : Spec.SlotOk .aes256Gcm slotB := ⟨rfl, rfl, rfl, by simp [slotB, Spec.supportedHashes]⟩

def headerV5 : Header where
  headerType := { version := .v5, algorithm := .aes256Gcm, mode := .streamMode }
  nonce := [1, 2, 3, 4, 5, 6, 7, 8]
  salt := none
  keyslots := some [slotA, slotB]

theorem headerV5_ok : Spec.OkV5 headerV5 := by
  refine ⟨rfl, rfl, [slotA, slotB], rfl, by decide, ?_⟩
  intro k hk
  simp only [List.mem_cons, List.not_mem_nil, or_false] at hk
  rcases hk with rfl | rfl
  · exact slotA_ok
  · exact slotB_ok

def headerV4 : Header where
  headerType := { version := .v4, algorithm := .aes256Gcm, mode := .streamMode }
  nonce := [1, 2, 3, 4, 5, 6, 7, 8]
  salt := none
  keyslots := some [slotA]

theorem headerV4_ok : Spec.OkV4 headerV4 := ⟨rfl, rfl, slotA, rfl, slotA_ok, .inl rfl⟩

def headerV3 : Header where
  headerType := { version := .v3, algorithm := .deoxysII256, mode := .memoryMode }
  nonce := List.replicate 15 3
  salt := some (List.replicate 16 4)
  keyslots := none

theorem headerV3_ok : Spec.OkV3 headerV3 := ⟨rfl, rfl, _, rfl, rfl⟩

end Volaris.Example
