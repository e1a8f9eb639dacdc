import Verif.Proofs.BothFs
/-!
# Running a program on two machines: the tools
-/
namespace Volaris
open Volaris.Spec
variable {ε ε' α β σ : Type} {K : Nat → Differ} {L : Path → Differ} {f : Bytes → Bytes}

/-! ## Secrets -/

/-- The password hash does not tell the two passwords apart. -/
def SameHash (C : Crypto) (k k' : Bytes) : Prop := ∀ fn salt, C.kdf fn k salt = C.kdf fn k' salt

theorem SameHash.hash {C : Crypto} {k k' : Bytes} (h : SameHash C k k') (a : HashingAlgorithm) (salt : Bytes) : a.hash C k salt = a.hash C k' salt := by
  unfold SameHash at h
  unfold HashingAlgorithm.hash argon2idHash balloonHash
  simp only [h]

theorem SameHash.open {C : Crypto} {k k' : Bytes} (h : SameHash C k k') (a : Algorithm) (s : Keyslot) : openKeyslot C k a s = openKeyslot C k' a s := by
  unfold openKeyslot
  rw [h.hash]

theorem SameHash.first {C : Crypto} {k k' : Bytes} (h : SameHash C k k') (a : Algorithm) : ∀ ks : List Keyslot, firstOpening C k a ks = firstOpening C k' a ks
  | [] => rfl
  | s :: ks => by unfold firstOpening; rw [h.open, h.first a ks]

theorem SameHash.masterKey {C : Crypto} {k k' : Bytes} (h : SameHash C k k') (hd : Header) : decryptMasterKey C k hd = decryptMasterKey C k' hd := by
  unfold decryptMasterKey argon2idHash
  simp only [h.open, h.first]
  unfold SameHash at h
  simp only [h]

/-- The cipher does not tell messages apart that differ at most like this. -/
def SameText (C : Crypto) (d : Differ) : Prop := ∀ a key nonce aad m m', d.allows m m' → C.enc a key nonce aad m = C.enc a key nonce aad m'

theorem sameText_no (C : Crypto) : SameText C .no := by intro a key nonce aad m m' h; cases h; rfl
theorem sameText_content {C : Crypto} (h : LengthOnly C) : SameText C .content := fun a key nonce aad m m' hl => h a key nonce aad m m' hl

/-! ## stream.rs -/

theorem sameText_next {C : Crypto} {d : Differ} (hC : SameText C d) (s : Stream) (aad : Bytes) {m m' : Bytes} (h : d.allows m m') : s.encryptNext C aad m = s.encryptNext C aad m' := by
  unfold Stream.encryptNext Stream.encAt
  rw [hC _ _ _ _ _ _ h]

theorem sameText_last {C : Crypto} {d : Differ} (hC : SameText C d) (s : Stream) (aad : Bytes) {m m' : Bytes} (h : d.allows m m') : s.encryptLast C aad m = s.encryptLast C aad m' := by
  unfold Stream.encryptLast Stream.encAt
  rw [hC _ _ _ _ _ _ h]

theorem both_encLoop {C : Crypto} {d : Differ} (hd : d.within .content) (hC : SameText C d) {rh : Nat} (wh : Nat) (aad : Bytes) : ∀ (fuel : Nat) (s : Stream) {w v : World}, Alike K L f w v → Holds K d rh w →
    Both K L f (fun _ _ _ => True) (encLoop C rh wh aad fuel s) (encLoop C rh wh aad fuel s) w v := by
  intro fuel
  induction fuel with
  | zero =>
    intro s w v hR hh
    unfold encLoop
    refine ((both_read hd BLOCK_SIZE hR hh).mapErr _).bind fun a b w v hab hR _ => ?_
    rw [← Differ.allows_len hd hab, sameText_next hC s aad hab, sameText_last hC s aad hab]
    split
    · refine (Both.same hR _).bind ?_
      rintro ⟨c, s'⟩ _ w v rfl hR _
      exact ((both_writeAll wh c hR).mapErr _).bind fun _ _ _ _ _ hR _ => .lift hR (.abort _)
    · refine (Both.same hR _).bind ?_
      rintro c _ w v rfl hR _
      exact (both_writeAll wh c hR).mapErr _
  | succ fuel ih =>
    intro s w v hR hh
    unfold encLoop
    refine ((both_read hd BLOCK_SIZE hR hh).mapErr _).bind fun a b w v hab hR hl => ?_
    rw [← Differ.allows_len hd hab, sameText_next hC s aad hab, sameText_last hC s aad hab]
    have hh := hh.later hl
    split
    · refine (Both.same hR _).bind ?_
      rintro ⟨c, s'⟩ _ w v rfl hR hl
      have hh := hh.later hl
      exact ((both_writeAll wh c hR).mapErr _).bind fun _ _ _ _ _ hR hl => ih s' hR (hh.later hl)
    · refine (Both.same hR _).bind ?_
      rintro c _ w v rfl hR _
      exact (both_writeAll wh c hR).mapErr _

theorem both_encryptFile {C : Crypto} {d : Differ} (hd : d.within .content) (hC : SameText C d) (s : Stream) {rh : Nat} (wh : Nat) (aad : Bytes) {w v : World} (hR : Alike K L f w v) (hh : Holds K d rh w) :
    Both K L f (fun _ _ _ => True) (encryptFile C s rh wh aad) (encryptFile C s rh wh aad) w v :=
  (both_encLoop hd hC wh aad _ s hR hh).bind fun _ _ _ _ _ hR _ => (both_flush wh hR).mapErr _

theorem both_decLoop {C : Crypto} {rh : Nat} (wh : Nat) (aad : Bytes) : ∀ (fuel : Nat) (s : Stream) {w v : World}, Alike K L f w v → Holds K .no rh w →
    Both K L f (fun _ _ _ => True) (decLoop C rh wh aad fuel s) (decLoop C rh wh aad fuel s) w v := by
  intro fuel
  induction fuel with
  | zero =>
    intro s w v hR hh
    unfold decLoop
    refine ((both_read (d := .no) trivial (BLOCK_SIZE + 16) hR hh).mapErr _).bind ?_
    rintro a _ w v ⟨⟩ hR _
    split
    · refine (Both.same hR _).bind ?_
      rintro ⟨c, s'⟩ _ w v rfl hR _
      exact ((both_writeAll wh c hR).mapErr _).bind fun _ _ _ _ _ hR _ => .lift hR (.abort _)
    · refine (Both.same hR _).bind ?_
      rintro c _ w v rfl hR _
      exact (both_writeAll wh c hR).mapErr _
  | succ fuel ih =>
    intro s w v hR hh
    unfold decLoop
    refine ((both_read (d := .no) trivial (BLOCK_SIZE + 16) hR hh).mapErr _).bind ?_
    rintro a _ w v ⟨⟩ hR hl
    have hh := hh.later hl
    split
    · refine (Both.same hR _).bind ?_
      rintro ⟨c, s'⟩ _ w v rfl hR hl
      have hh := hh.later hl
      exact ((both_writeAll wh c hR).mapErr _).bind fun _ _ _ _ _ hR hl => ih s' hR (hh.later hl)
    · refine (Both.same hR _).bind ?_
      rintro c _ w v rfl hR _
      exact (both_writeAll wh c hR).mapErr _

theorem both_decryptFile {C : Crypto} (s : Stream) {rh : Nat} (wh : Nat) (aad : Bytes) {w v : World} (hR : Alike K L f w v) (hh : Holds K .no rh w) :
    Both K L f (fun _ _ _ => True) (decryptFile C s rh wh aad) (decryptFile C s rh wh aad) w v :=
  (both_decLoop wh aad _ s hR hh).bind fun _ _ _ _ _ hR _ => (both_flush wh hR).mapErr _

/-! ## encrypt.rs -/

theorem prepare_same {C : Crypto} {k k' : Bytes} (h : SameHash C k k') (req : Encrypt.Request) : Encrypt.prepare C { req with rawKey := k } = Encrypt.prepare C { req with rawKey := k' } := by
  unfold Encrypt.prepare
  simp only [h.hash]

theorem both_prepare {C : Crypto} (req : Encrypt.Request) {w v : World} (hR : Alike K L f w v) : Both K L f (fun a b _ => a = b) (Encrypt.prepare C req) (Encrypt.prepare C req) w v := by
  unfold Encrypt.prepare
  refine (both_genBytes _ hR).bind ?_
  rintro salt _ w v rfl hR _
  refine (Both.same hR _).bind ?_
  rintro key _ w v rfl hR _
  refine (Both.same hR _).bind ?_
  rintro cipher _ w v rfl hR _
  refine (both_genBytes _ hR).bind ?_
  rintro mk _ w v rfl hR _
  refine (both_genBytes _ hR).bind ?_
  rintro nonce _ w v rfl hR _
  refine (Both.same hR _).bind ?_
  rintro ek _ w v rfl hR _
  refine (both_genBytes _ hR).bind ?_
  rintro hn _ w v rfl hR _
  refine (Both.same hR _).bind ?_
  rintro st _ w v rfl hR _
  exact .pure hR rfl

theorem both_writeHeader (req : Encrypt.Request) (hd : Header) {w v : World} (hR : Alike K L f w v) : Both K L f (fun _ _ _ => True) (Encrypt.writeHeader req hd) (Encrypt.writeHeader req hd) w v := by
  unfold Encrypt.writeHeader
  cases req.headerWriter with
  | none =>
    refine (Both.same hR _).bind ?_
    rintro bs _ w v rfl hR _
    exact ((both_write _ bs hR).mapErr _).bind fun _ _ _ _ _ hR _ => .pure hR trivial
  | some hw =>
    refine ((both_rewind hw hR).mapErr _).bind fun _ _ w v _ hR _ => ?_
    refine (Both.same hR _).bind ?_
    rintro bs _ w v rfl hR _
    exact ((both_write _ bs hR).mapErr _).bind fun _ _ _ _ _ hR _ => .pure hR trivial

theorem both_encrypt {C : Crypto} {d : Differ} (hd : d.within .content) (hC : SameText C d) (req : Encrypt.Request) {k : Bytes} (hk : SameHash C req.rawKey k) {w v : World} (hR : Alike K L f w v) (hh : Holds K d req.reader w) :
    Both K L f (fun _ _ _ => True) (Encrypt.execute C req) (Encrypt.execute C { req with rawKey := k }) w v := by
  have e : Encrypt.execute C { req with rawKey := k } = Encrypt.execute C req := by
    unfold Encrypt.execute
    rw [← prepare_same hk req]
    rfl
  rw [e]
  unfold Encrypt.execute
  refine (both_prepare req hR).bind ?_
  rintro ⟨header, streams⟩ _ w v rfl hR hl
  have hh := hh.later hl
  refine ((both_rewind _ hR).mapErr _).bind fun _ _ w v _ hR hl => ?_
  have hh := hh.later hl
  refine (both_writeHeader req header hR).bind fun _ _ w v _ hR hl => ?_
  have hh := hh.later hl
  refine (Both.same hR _).bind ?_
  rintro aad _ w v rfl hR hl
  have hh := hh.later hl
  refine ((both_rewind _ hR).mapErr _).bind fun _ _ w v _ hR hl => ?_
  exact (both_encryptFile hd hC streams _ aad hR (hh.later hl)).mapErr _

/-! ## decrypt.rs -/

theorem both_deserialize {h : Nat} {w v : World} (hR : Alike K L f w v) (hh : Holds K .no h w) : Both K L f (fun a b _ => a = b) (deserialize h) (deserialize h) w v := by
  unfold deserialize
  refine ((both_readExact (d := .no) trivial 2 hR hh).mapErr _).bind ?_
  rintro vb _ w v ⟨⟩ hR hl
  have hh := hh.later hl
  refine ((both_seekCur h (-2) hR).mapErr _).bind fun _ _ w v _ hR hl => ?_
  have hh := hh.later hl
  cases parseVersion vb with
  | none => exact .throw hR _
  | some version =>
    refine ((both_readExact (d := .no) trivial version.size hR hh).mapErr _).bind ?_
    rintro full _ w v ⟨⟩ hR _
    exact Both.same hR _

/-- The handle for the header, if there is one. -/
def OptHolds (K : Nat → Differ) (d : Differ) (o : Option Nat) (w : World) : Prop := ∀ h, o = some h → Holds K d h w

theorem OptHolds.later {d : Differ} {o : Option Nat} {w w' : World} (h : OptHolds K d o w) (hl : Later w w') : OptHolds K d o w' := fun x e => (h x e).later hl

theorem both_getHeader (req : Decrypt.Request) {w v : World} (hR : Alike K L f w v) (hh : Holds K .no req.reader w) (ho : OptHolds K .no req.headerReader w) :
    Both K L f (fun a b _ => a = b) (Decrypt.getHeader req) (Decrypt.getHeader req) w v := by
  unfold Decrypt.getHeader
  cases hr : req.headerReader with
  | none => exact (both_deserialize hR hh).mapErr _
  | some h =>
    refine ((both_deserialize hR (ho h hr)).mapErr _).bind ?_
    rintro ⟨header, aad⟩ _ w v rfl hR hl
    refine ((both_readUpTo (d := .no) trivial header.getSize hR (hh.later hl)).mapErr _).bind ?_
    rintro got _ w v ⟨⟩ hR _
    simp only []
    split
    · exact ((both_rewind _ hR).mapErr _).bind fun _ _ _ _ _ hR _ => .pure hR rfl
    · exact .pure hR rfl

theorem both_decBody {C : Crypto} (req : Decrypt.Request) (header : Header) (aad : Bytes) {w v : World} (hR : Alike K L f w v) (hh : Holds K .no req.reader w) :
    Both K L f (fun _ _ _ => True) (Decrypt.body C req header aad) (Decrypt.body C req header aad) w v := by
  unfold Decrypt.body
  cases header.headerType.mode with
  | memoryMode =>
    refine ((both_readToEnd (d := .no) trivial hR hh).mapErr _).bind ?_
    rintro ct _ w v ⟨⟩ hR _
    refine (Both.same hR _).bind ?_
    rintro mk _ w v rfl hR _
    refine (Both.same hR _).bind ?_
    rintro ci _ w v rfl hR _
    refine (Both.same hR _).bind ?_
    rintro pt _ w v rfl hR _
    exact (both_writeAll _ _ hR).mapErr _
  | streamMode =>
    refine (Both.same hR _).bind ?_
    rintro mk _ w v rfl hR hl
    have hh := hh.later hl
    refine (Both.same hR _).bind ?_
    rintro st _ w v rfl hR hl
    exact (both_decryptFile st _ aad hR (hh.later hl)).mapErr _

theorem both_decrypt {C : Crypto} (req : Decrypt.Request) {k : Bytes} (hk : SameHash C req.rawKey k) {w v : World} (hR : Alike K L f w v) (hh : Holds K .no req.reader w) (ho : OptHolds K .no req.headerReader w) :
    Both K L f (fun _ _ _ => True) (Decrypt.execute C req) (Decrypt.execute C { req with rawKey := k }) w v := by
  have e : Decrypt.execute C { req with rawKey := k } = Decrypt.execute C req := by
    unfold Decrypt.execute Decrypt.body
    simp only [← hk.masterKey]
    rfl
  rw [e]
  unfold Decrypt.execute
  refine (both_getHeader req hR hh ho).bind ?_
  rintro ⟨header, aad⟩ _ w v rfl hR hl
  exact both_decBody req header aad hR (hh.later hl)

/-! ## hash.rs -/

theorem both_hashLoop (H : HashCmd.Hasher σ) {d : Differ} (hd : d.within .content) {h : Nat} : ∀ (fuel : Nat) (st st' : σ) {w v : World}, Alike K L f w v → Holds K d h w → (d = .no → st = st') →
    Both K L f (fun a b _ => d = .no → a = b) (HashCmd.loop H h fuel st) (HashCmd.loop H h fuel st') w v := by
  intro fuel
  induction fuel with
  | zero =>
    intro st st' w v hR hh hst
    unfold HashCmd.loop
    refine ((both_read hd BLOCK_SIZE hR hh).mapErr _).bind fun a b w v hab hR _ => ?_
    have hw : d = .no → H.write st a = H.write st' b := by
      intro e
      subst e
      cases hab
      rw [hst rfl]
    simp only [← Differ.allows_len hd hab]
    split
    · exact .pure hR hw
    · exact .lift hR (.abort _)
  | succ fuel ih =>
    intro st st' w v hR hh hst
    unfold HashCmd.loop
    refine ((both_read hd BLOCK_SIZE hR hh).mapErr _).bind fun a b w v hab hR hl => ?_
    have hw : d = .no → H.write st a = H.write st' b := by
      intro e
      subst e
      cases hab
      rw [hst rfl]
    simp only [← Differ.allows_len hd hab]
    split
    · exact .pure hR hw
    · exact ih _ _ hR (hh.later hl) hw

theorem both_hash (H : HashCmd.Hasher σ) {d : Differ} (hd : d.within .content) {h : Nat} {w v : World} (hR : Alike K L f w v) (hh : Holds K d h w) :
    Both K L f (fun a b _ => d = .no → a = b) (HashCmd.execute H h) (HashCmd.execute H h) w v := by
  unfold HashCmd.execute
  refine ((both_rewind h hR).mapErr _).bind fun _ _ w v _ hR hl => ?_
  have hh := hh.later hl
  refine Both.bind (P := fun a b _ => d = .no → a = b) ?_ fun a b w v hab hR _ => .pure hR fun e => by rw [hab e]
  have := both_hashLoop H hd (w.data h).length H.init H.init hR hh (fun _ => rfl)
  have e : HashCmd.hashAll H h v = HashCmd.loop H h (w.data h).length H.init v := by
    unfold HashCmd.hashAll
    rw [Differ.allows_len hd (hR.data hh)]
  exact ⟨by rw [e]; exact this.alike, this.later, by rw [e]; exact this.results⟩

/-! ## key.rs and header/*.rs -/

theorem SameHash.search {C : Crypto} {k k' : Bytes} (h : SameHash C k k') (a : Algorithm) : ∀ (ks : List Keyslot) (i : Nat), KeyOps.searchKeyslots C k a i ks = KeyOps.searchKeyslots C k' a i ks
  | [], _ => rfl
  | s :: ks, i => by unfold KeyOps.searchKeyslots; rw [h.hash, h.search a ks]

theorem SameHash.withIndex {C : Crypto} {k k' : Bytes} (h : SameHash C k k') (a : Algorithm) (ks : List Keyslot) : KeyOps.decryptV5MasterKeyWithIndex C ks k a = KeyOps.decryptV5MasterKeyWithIndex C ks k' a := by
  unfold KeyOps.decryptV5MasterKeyWithIndex
  rw [h.search]

theorem both_headerWrite (hd : Header) (h : Nat) {w v : World} (hR : Alike K L f w v) : Both K L f (fun _ _ _ => True) (hd.write h) (hd.write h) w v := by
  unfold Header.write
  refine (Both.same hR _).bind ?_
  rintro bs _ w v rfl hR _
  exact ((both_write _ bs hR).mapErr _).bind fun _ _ _ _ _ hR _ => .pure hR trivial

theorem both_load {h : Nat} {w v : World} (hR : Alike K L f w v) (hh : Holds K .no h w) : Both K L f (fun a b _ => a = b) (KeyOps.load h) (KeyOps.load h) w v := by
  unfold KeyOps.load
  refine ((both_deserialize hR hh).mapErr _).bind ?_
  rintro ⟨header, aad⟩ _ w v rfl hR _
  simp only []
  split
  · exact .throw hR _
  · refine ((both_seekCur h _ hR).mapErr _).bind fun _ _ w v _ hR _ => ?_
    cases header.keyslots with
    | none => exact .panic hR
    | some ks => exact .pure hR rfl

theorem both_store (h : Nat) (header : Header) (ks : List Keyslot) {w v : World} (hR : Alike K L f w v) : Both K L f (fun _ _ _ => True) (KeyOps.store h header ks) (KeyOps.store h header ks) w v :=
  (both_headerWrite _ h hR).mapErr _

theorem both_keyAdd {C : Crypto} (req : KeyOps.NewKeyRequest) {k k' : Bytes} (ho : SameHash C req.rawKeyOld k) (hn : SameHash C req.rawKeyNew k') {w v : World} (hR : Alike K L f w v) (hh : Holds K .no req.handle w) :
    Both K L f (fun _ _ _ => True) (KeyOps.add C req) (KeyOps.add C { req with rawKeyOld := k, rawKeyNew := k' }) w v := by
  have e : KeyOps.add C { req with rawKeyOld := k, rawKeyNew := k' } = KeyOps.add C req := by
    unfold KeyOps.add
    simp only [← ho.withIndex, ← hn.hash]
  rw [e]
  unfold KeyOps.add
  refine (both_load hR hh).bind ?_
  rintro ⟨header, keyslots⟩ _ w v rfl hR _
  refine (Both.same hR _).bind ?_
  rintro ⟨mk, i⟩ _ w v rfl hR _
  simp only []
  split
  · exact .throw hR _
  · refine (both_genBytes _ hR).bind ?_
    rintro salt _ w v rfl hR _
    refine (both_genBytes _ hR).bind ?_
    rintro nonce _ w v rfl hR _
    refine (Both.same hR _).bind ?_
    rintro key _ w v rfl hR _
    refine (Both.same hR _).bind ?_
    rintro ek _ w v rfl hR _
    exact both_store _ _ _ hR

theorem both_keyChange {C : Crypto} (req : KeyOps.NewKeyRequest) {k k' : Bytes} (ho : SameHash C req.rawKeyOld k) (hn : SameHash C req.rawKeyNew k') {w v : World} (hR : Alike K L f w v) (hh : Holds K .no req.handle w) :
    Both K L f (fun _ _ _ => True) (KeyOps.change C req) (KeyOps.change C { req with rawKeyOld := k, rawKeyNew := k' }) w v := by
  have e : KeyOps.change C { req with rawKeyOld := k, rawKeyNew := k' } = KeyOps.change C req := by
    unfold KeyOps.change
    simp only [← ho.withIndex, ← hn.hash]
  rw [e]
  unfold KeyOps.change
  refine (both_load hR hh).bind ?_
  rintro ⟨header, keyslots⟩ _ w v rfl hR _
  refine (Both.same hR _).bind ?_
  rintro ⟨mk, i⟩ _ w v rfl hR _
  refine (both_genBytes _ hR).bind ?_
  rintro salt _ w v rfl hR _
  refine (Both.same hR _).bind ?_
  rintro key _ w v rfl hR _
  refine (both_genBytes _ hR).bind ?_
  rintro nonce _ w v rfl hR _
  refine (Both.same hR _).bind ?_
  rintro ek _ w v rfl hR _
  simp only []
  split
  · exact both_store _ _ _ hR
  · exact .panic hR

theorem both_keyDelete {C : Crypto} {h : Nat} {k k' : Bytes} (ho : SameHash C k k') {w v : World} (hR : Alike K L f w v) (hh : Holds K .no h w) :
    Both K L f (fun _ _ _ => True) (KeyOps.delete C h k) (KeyOps.delete C h k') w v := by
  have e : KeyOps.delete C h k' = KeyOps.delete C h k := by
    unfold KeyOps.delete
    simp only [← ho.withIndex]
  rw [e]
  unfold KeyOps.delete
  refine (both_load hR hh).bind ?_
  rintro ⟨header, keyslots⟩ _ w v rfl hR _
  refine (Both.same hR _).bind ?_
  rintro ⟨mk, i⟩ _ w v rfl hR _
  simp only []
  split
  · exact both_store _ _ _ hR
  · exact .panic hR

theorem both_keyVerify {C : Crypto} {h : Nat} {k k' : Bytes} (ho : SameHash C k k') {w v : World} (hR : Alike K L f w v) (hh : Holds K .no h w) :
    Both K L f (fun _ _ _ => True) (KeyOps.verify C h k) (KeyOps.verify C h k') w v := by
  have e : KeyOps.verify C h k' = KeyOps.verify C h k := by
    unfold KeyOps.verify
    simp only [← ho.withIndex]
  rw [e]
  unfold KeyOps.verify
  refine ((both_deserialize hR hh).mapErr _).bind ?_
  rintro ⟨header, aad⟩ _ w v rfl hR _
  simp only []
  split
  · exact .throw hR _
  · cases header.keyslots with
    | none => exact .panic hR
    | some ks =>
      refine (Both.same hR _).bind ?_
      rintro a _ w v rfl hR _
      exact .pure hR trivial

theorem both_dump {r : Nat} (o : Nat) {w v : World} (hR : Alike K L f w v) (hh : Holds K .no r w) : Both K L f (fun _ _ _ => True) (HeaderOps.dump r o) (HeaderOps.dump r o) w v := by
  unfold HeaderOps.dump
  refine ((both_deserialize hR hh).mapErr _).bind ?_
  rintro ⟨header, aad⟩ _ w v rfl hR _
  exact (both_headerWrite _ _ hR).mapErr _

theorem both_restore {r o : Nat} {w v : World} (hR : Alike K L f w v) (hh : Holds K .no r w) (ho : Holds K .no o w) : Both K L f (fun _ _ _ => True) (HeaderOps.restore r o) (HeaderOps.restore r o) w v := by
  unfold HeaderOps.restore
  refine ((both_deserialize hR hh).mapErr _).bind ?_
  rintro ⟨header, aad⟩ _ w v rfl hR hl
  refine ((both_read (d := .no) trivial _ hR (ho.later hl)).mapErr _).bind ?_
  rintro got _ w v ⟨⟩ hR _
  simp only []
  split
  · exact .throw hR _
  · exact ((both_rewind _ hR).mapErr _).bind fun _ _ _ _ _ hR _ => (both_headerWrite _ _ hR).mapErr _

theorem both_strip {h : Nat} {w v : World} (hR : Alike K L f w v) (hh : Holds K .no h w) : Both K L f (fun _ _ _ => True) (HeaderOps.strip h) (HeaderOps.strip h) w v := by
  unfold HeaderOps.strip
  refine ((both_deserialize hR hh).mapErr _).bind ?_
  rintro ⟨header, aad⟩ _ w v rfl hR _
  exact ((both_rewind _ hR).mapErr _).bind fun _ _ _ _ _ hR _ => (both_writeAll _ _ hR).mapErr _

end Volaris
