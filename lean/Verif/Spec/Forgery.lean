import Verif.Spec.Behaviour
import Verif.Spec.Cli
/-!
# Whose content a decrypted file is

Files somebody really encrypted, and what it means that nothing else was forged under their keys.
-/
namespace Volaris.Spec

/-- A file that was really encrypted: its header, the associated data authenticated with its body, its data key and its plaintext. -/
structure Made where
  header : Header
  aad : Bytes
  key : Bytes
  plain : Bytes

/-- The files `made` were encrypted properly: each with the associated data of its header, with no more blocks than the counter allows,
and no two different plaintexts with the same data key and the same associated data. -/
structure ProperlyMade (C : Crypto) (made : Made → Prop) : Prop where
  header : ∀ f, made f → ∃ bs, IsHeader bs f.header f.aad
  blocks : ∀ f, made f → f.header.headerType.mode = .streamMode → f.plain.length / blockLen ≤ C.ctrMax
  fresh : ∀ f f', made f → made f' → f.key = f'.key → f.aad = f'.aad → f.plain = f'.plain

/-- `Presented C h body n c`: decrypting `body` under header `h`, ciphertext `c` with nonce `n` can be presented to the AEAD.  In memory mode
this is the whole body; in stream mode a read of at most one ciphertext block after some number of complete ones. -/
def Presented (C : Crypto) (h : Header) (body n c : Bytes) : Prop :=
  match h.headerType.mode with
  | .memoryMode => n = h.nonce ∧ c = body
  | .streamMode => ∃ i, i ≤ C.ctrMax ∧ c <+: body.drop (i * (blockLen + tagLen)) ∧ c.length ≤ blockLen + tagLen ∧
      n = blockNonce h.nonce i (decide (c.length < blockLen + tagLen))

/-- No forgery in `body`: whatever can be presented to the AEAD and opens under key `mk` is one of the encryptions made for one of
the files `made` (not necessarily the same one each time, nor in the same place). -/
def Unforged (C : Crypto) (made : Made → Prop) (h : Header) (aad mk body : Bytes) : Prop :=
  ∀ n c q, Presented C h body n c → C.dec h.headerType.algorithm mk n aad c = some q →
    ∃ f, made f ∧ BodySealing C f.header f.key f.aad f.plain
      { algorithm := h.headerType.algorithm, key := mk, nonce := n, aad := aad, ciphertext := c }

/-- No forgery in the file `content` for somebody who decrypts with `pw`. -/
def UnforgedFile (C : Crypto) (made : Made → Prop) (pw content : Bytes) : Prop :=
  ∀ h aad mk, IsHeader content h aad → Recovers C pw h mk → Unforged C made h aad mk (content.drop (headerSize h.headerType.version))

/-- The same with a separate header. -/
def UnforgedDetached (C : Crypto) (made : Made → Prop) (pw hdr content : Bytes) : Prop :=
  ∀ h aad mk, IsHeader hdr h aad → Recovers C pw h mk → Unforged C made h aad mk (detachedBody (headerSize h.headerType.version) content)

/-- `bs` starts with a header of version 3, 4 or 5, if with any. -/
def Authenticated (bs : Bytes) : Prop :=
  ∀ h aad, IsHeader bs h aad → h.headerType.version ≠ .v1 ∧ h.headerType.version ≠ .v2

/-- A finished decryption whose outcome is `r` wrote nothing but genuine content: the whole of the plaintext of one of the files
`made` if it succeeded; if it failed, a beginning of one, or nothing. -/
def Faithful (made : Made → Prop) (wh : Nat) (v : World) (out : Res Decrypt.Error Unit × World) : Prop :=
  (out.1 = .ok () ∧ ∃ f, made f ∧ Wrote wh v out.2 f.plain) ∨
  (∃ e, out.1 = .err e ∧ (out.2.file = v.file ∨ ∃ f q, made f ∧ q <+: f.plain ∧ Wrote wh v out.2 q))

/-- What the decrypt command finds for these arguments is not forged: the input, and the header file if there is one. -/
def UnforgedInput {σ : Type} (s : Cli.Sys σ) (made : Made → Prop) (input : List Char) (params : Cli.CryptoParams) (w : World) : Prop :=
  ∀ q i secret, LeadsToFile w (Cli.toPath s.cwd input) q i → SuppliedTo s .direct params.key w secret →
    (Authenticated (w.file i) ∧ UnforgedFile s.C made secret (w.file i)) ∧
    ∀ hd qh k, params.header = some hd → LeadsToFile w (Cli.toPath s.cwd hd) qh k →
      Authenticated (w.file k) ∧ UnforgedDetached s.C made secret (w.file k) (w.file i)

/-! ## Versions 1 and 2 -/

/-- Where the nonce is in a header of version 1 or 2. -/
def oldNonceAt : HeaderVersion → Nat
  | .v1 => 38
  | _ => 22

/-- The bytes of a version 1 or 2 file in stream mode with its mode changed to memory mode, the number `i` written after the nonce, and all of
the body removed but block `i`.  No secret is needed to do this. -/
def cutOut (h : Header) (content : Bytes) (i : Nat) : Bytes :=
  let front := oldNonceAt h.headerType.version
  let n := nonceLength h.headerType.algorithm .streamMode
  content.take 4 ++ modeCode .memoryMode ++ slice content 6 (front - 6) ++
    blockNonce (slice content front n) i false ++ List.replicate (64 - front - n - 4) 0 ++
    slice content (64 + i * (blockLen + tagLen)) (blockLen + tagLen)

end Volaris.Spec
