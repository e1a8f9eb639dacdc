import Verif.Spec.Behaviour
import Verif.Model.Tools.Key
/-!
# Vocabulary for the key operations

What a file with keyslots is, what replacing its header means, and the list of passwords that a user thinks of.
-/
namespace Volaris.Spec

/-- `content` starts with a V5 header with the keyslots `ks`, and the unused bytes of its static part are zero, as in every file
the program writes. -/
structure KeyFile (content : Bytes) (hd : Header) (ks : List Keyslot) (aad : Bytes) : Prop where
  header : IsHeader content hd aad
  v5 : hd.headerType.version = .v5
  slots : hd.keyslots = some ks
  padding : ∀ b ∈ slice content (6 + nonceLength hd.headerType.algorithm hd.headerType.mode)
    (26 - nonceLength hd.headerType.algorithm hd.headerType.mode), b = 0

/-- From `w` to `w'`, what stood in front of handle `h` was replaced by `content'` of the same length with the same bytes after the
416 header bytes; nothing before the handle and no other file changed. -/
structure HeaderReplaced (h : Nat) (w w' : World) (content' : Bytes) : Prop where
  now : (w'.data h).drop (w.fd h).pos = content'
  before : (w'.data h).take (w.fd h).pos = (w.data h).take (w.fd h).pos
  body : content'.drop 416 = (w.rest h).drop 416
  length : content'.length = (w.rest h).length
  touches : Touches [] [h] w w'

/-- `k` is a keyslot in which `mk` is sealed under the hash `h` of `pw` with the given salt and nonce. -/
structure SealedSlot (C : Crypto) (a : Algorithm) (mk pw : Bytes) (h : HashingAlgorithm) (salt nonce : Bytes) (k : Keyslot) : Prop where
  alg : k.hashAlgorithm = h
  saltEq : k.salt = salt
  nonceEq : k.nonce = nonce
  sealed : ∃ hk, HashesTo C h pw salt hk ∧ C.enc a hk nonce [] mk = some k.encryptedKey

/-- Whatever `pw` opens among the keyslots `ks` is the key `mk`. -/
def OnlyOpens (C : Crypto) (a : Algorithm) (pw : Bytes) (ks : List Keyslot) (mk : Bytes) : Prop :=
  ∀ k ∈ ks, ∀ m, Opens C a pw k m → m = mk

/-- `pw` opens none of the keyslots `ks`. -/
def OpensNone (C : Crypto) (a : Algorithm) (pw : Bytes) (ks : List Keyslot) : Prop :=
  ∀ k ∈ ks, ∀ m, ¬ Opens C a pw k m

/-- Hashing `pw` works for all keyslots `ks`. -/
def HashWorks (C : Crypto) (pw : Bytes) (ks : List Keyslot) : Prop :=
  ∀ k ∈ ks, ∃ hk, HashesTo C k.hashAlgorithm pw k.salt hk

/-! ### The user's view: a list of passwords -/

/-- The commands on the keys of a file. -/
inductive KeyCmd where
  | add (old new : Bytes) (h : HashingAlgorithm)
  | change (old new : Bytes) (h : HashingAlgorithm)
  | delete (pw : Bytes)
  | verify (pw : Bytes)

/-- The passwords in a command. -/
def KeyCmd.passwords : KeyCmd → List Bytes
  | add old new _ => [old, new]
  | change old new _ => [old, new]
  | delete pw => [pw]
  | verify pw => [pw]

/-- What each command does to the list of passwords, and its result. -/
def KeyCmd.onList : KeyCmd → List Bytes → Res KeyOps.Error Unit × List Bytes
  | add old new h, l =>
      if old ∉ l then (.err .incorrectKey, l)
      else if l.length = 4 then (.err .tooManyKeyslots, l)
      else if h ∉ supportedHashes then (.err .keyHash, l)
      else (.ok (), l ++ [new])
  | change old new h, l =>
      if old ∉ l then (.err .incorrectKey, l)
      else if h ∉ supportedHashes then (.err .keyHash, l)
      else (.ok (), l.replace old new)
  | delete pw, l => if pw ∉ l then (.err .incorrectKey, l) else (.ok (), l.erase pw)
  | verify pw, l => if pw ∉ l then (.err .incorrectKey, l) else (.ok (), l)

/-- A sequence of commands on the list: the results and the final list. -/
def onListAll : List KeyCmd → List Bytes → List (Res KeyOps.Error Unit) × List Bytes
  | [], l => ([], l)
  | c :: cs, l => ((c.onList l).1 :: (onListAll cs (c.onList l).2).1, (onListAll cs (c.onList l).2).2)

/-- The command on the file behind handle `h`, which is positioned at the start (the file is opened anew for every command). -/
def KeyCmd.onFile (C : Crypto) (h : Nat) (c : KeyCmd) (w : World) : Res KeyOps.Error Unit × World :=
  match c with
  | add old new hash => KeyOps.add C { handle := h, rawKeyOld := old, rawKeyNew := new, hashAlgorithm := hash } (w.setPos h 0)
  | change old new hash => KeyOps.change C { handle := h, rawKeyOld := old, rawKeyNew := new, hashAlgorithm := hash } (w.setPos h 0)
  | delete pw => KeyOps.delete C h pw (w.setPos h 0)
  | verify pw => KeyOps.verify C h pw (w.setPos h 0)

/-- A sequence of commands on the file. -/
def onFileAll (C : Crypto) (h : Nat) : List KeyCmd → World → List (Res KeyOps.Error Unit) × World
  | [], w => ([], w)
  | c :: cs, w => ((c.onFile C h w).1 :: (onFileAll C h cs (c.onFile C h w).2).1, (onFileAll C h cs (c.onFile C h w).2).2)

/-- The commands that reported success. -/
def successes : List KeyCmd → List (Res KeyOps.Error Unit) → List KeyCmd
  | c :: cs, .ok () :: rs => c :: successes cs rs
  | _ :: cs, _ :: rs => successes cs rs
  | _, _ => []

/-- The passwords `U` are told apart by the keyslots that can be made in a run of `n` commands from `w`: a slot made for one of them from
the random bytes of that run is not opened by another. -/
def ToldApart (C : Crypto) (a : Algorithm) (mk : Bytes) (U : List Bytes) (w : World) (n : Nat) : Prop :=
  ∀ i ≤ n * (16 + nonceLength a .memoryMode), ∀ pw ∈ U, ∀ pw' ∈ U, pw ≠ pw' → ∀ h k m,
    SealedSlot C a mk pw h (tape w i 16) (tape w (i + 16) (nonceLength a .memoryMode)) k → ¬ Opens C a pw' k m

/-- No internal errors of the primitives for these passwords and this key. -/
structure KeysWork (C : Crypto) (a : Algorithm) (mk : Bytes) (U : List Bytes) : Prop where
  hash : ∀ pw ∈ U, ∀ h f, kdfParams h = some f → ∀ salt, (C.kdf f pw salt).isSome
  enc : ∀ key n, key.length = 32 → n.length = nonceLength a .memoryMode → (C.enc a key n [] mk).isSome

/-- The keyslots belong, in order, to the passwords: each is opened by its password to `mk` and by no other password of `U`. -/
def SlotsFor (C : Crypto) (a : Algorithm) (mk : Bytes) (U : List Bytes) (l : List Bytes) (ks : List Keyslot) : Prop :=
  l.length = ks.length ∧ ∀ q ∈ l.zip ks, Opens C a q.1 q.2 mk ∧ ∀ pw ∈ U, pw ≠ q.1 → ∀ m, ¬ Opens C a pw q.2 m

end Volaris.Spec
