import Verif.Spec.Files
import Verif.Model.Tools.Decrypt
import Verif.Model.Tools.Encrypt
/-!
# What a user observes of `decrypt::execute`

Statements about calls of the modelled API; the properties are phrased with them.
-/
namespace Volaris.Spec

/-- A decryption request without separate header, set up sensibly: input and output are different handles of different files, and the
input stands before `content`. -/
structure Asks (req : Decrypt.Request) (v : World) (pw content : Bytes) : Prop where
  embedded : req.headerReader = none
  key : req.rawKey = pw
  handles : req.reader ≠ req.writer
  files : (v.fd req.reader).ino ≠ (v.fd req.writer).ino
  content : v.rest req.reader = content

/-- The same with a separate header file `hdr`; the input is read from its start. -/
structure AsksDetached (req : Decrypt.Request) (v : World) (pw hdr content : Bytes) (hr : Nat) : Prop where
  detached : req.headerReader = some hr
  key : req.rawKey = pw
  header : hr ≠ req.reader ∧ hr ≠ req.writer
  handles : req.reader ≠ req.writer
  files : (v.fd req.reader).ino ≠ (v.fd req.writer).ino
  start : (v.fd req.reader).pos = 0
  content : v.data req.reader = content
  hdr : v.rest hr = hdr

/-- Decrypting `content` with password `pw` works: on whatever files and handles, without I/O faults, the call succeeds, writes
exactly `p` and does nothing else. -/
def DecryptsTo (C : Crypto) (pw content p : Bytes) : Prop :=
  ∀ req v, Asks req v pw content → v.sched = [] →
    ∃ v', Decrypt.execute C req v = (.ok (), v') ∧ Wrote req.writer v v' p ∧ Touches [req.reader] [req.writer] v v'

/-- The same with a separate header. -/
def DetachedDecryptsTo (C : Crypto) (pw hdr content p : Bytes) : Prop :=
  ∀ req v hr, AsksDetached req v pw hdr content hr → v.sched = [] →
    ∃ v', Decrypt.execute C req v = (.ok (), v') ∧ Wrote req.writer v v' p ∧
      Touches [hr, req.reader] [req.writer] v v'

/-- Decrypting `content` with password `pw` fails, under every I/O schedule, and no file is changed. -/
def Refuses (C : Crypto) (pw content : Bytes) : Prop :=
  ∀ req v, Asks req v pw content → ∃ e v', Decrypt.execute C req v = (.err e, v') ∧ v'.file = v.file

/-- The same with a separate header. -/
def DetachedRefuses (C : Crypto) (pw hdr content : Bytes) : Prop :=
  ∀ req v hr, AsksDetached req v pw hdr content hr → ∃ e v', Decrypt.execute C req v = (.err e, v') ∧ v'.file = v.file

/-- Whatever a call succeeds with under a schedule without short transfers, it is `p`. -/
def OnlyDecryptsTo (C : Crypto) (pw content p : Bytes) : Prop :=
  ∀ req v v', Asks req v pw content → (∀ k, Io.short k ∉ v.sched) → Decrypt.execute C req v = (.ok (), v') →
    Wrote req.writer v v' p

/-- An encryption that took place: algorithm, key, nonce, associated data and the resulting ciphertext. -/
structure Sealing where
  algorithm : Algorithm
  key : Bytes
  nonce : Bytes
  aad : Bytes
  ciphertext : Bytes

/-- The encryptions made for the body of plaintext `p` with header `h`, data key `mk` and associated data `aad`. -/
def BodySealing (C : Crypto) (h : Header) (mk aad p : Bytes) (s : Sealing) : Prop :=
  s.algorithm = h.headerType.algorithm ∧ s.key = mk ∧ s.aad = aad ∧
  ∃ m, C.enc s.algorithm s.key s.nonce s.aad m = some s.ciphertext ∧
    match h.headerType.mode with
    | .memoryMode => s.nonce = h.nonce ∧ m = p
    | .streamMode => ∃ i last, GenuineChunk p i last m ∧ s.nonce = blockNonce h.nonce i last

/-- No forgery at the start: whatever decryption of `content` with `pw` presents first to the AEAD and that opens is one of the
encryptions `made`. -/
def NoForgedStart (C : Crypto) (pw content : Bytes) (made : Sealing → Prop) : Prop :=
  ∀ h aad mk n c q, IsHeader content h aad → Recovers C pw h mk →
    FirstCall h (content.drop (headerSize h.headerType.version)) n c →
    C.dec h.headerType.algorithm mk n aad c = some q →
    made { algorithm := h.headerType.algorithm, key := mk, nonce := n, aad := aad, ciphertext := c }

end Volaris.Spec
