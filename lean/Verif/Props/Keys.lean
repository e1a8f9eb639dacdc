import Verif.Proofs.KeyFaults
import Verif.Props.EndToEnd
/-!
# Properties of the key operations
-/
namespace Volaris.Props
open Spec KeyOps

/-- The file of the examples: AES, one keyslot for the password `[112, 119]`, body `[1, 2, 3]`. -/
def exFile : Bytes := ex19Bytes (List.replicate 8 1) ++ ex19Body

def exHeader : Header where
  headerType := exV5
  nonce := List.replicate 8 1
  salt := some (zeros 16)
  keyslots := some [ex19Slot]

theorem exFile_key : KeyFile exFile exHeader [ex19Slot] (ex19Aad (List.replicate 8 1)) :=
  ⟨ex19_isHeader _ _ rfl, rfl, rfl, by decide +kernel⟩

def exAdd : NewKeyRequest where
  handle := 0
  rawKeyOld := [112, 119]
  rawKeyNew := [9, 9]
  hashAlgorithm := .blake3Balloon 5

/-! ### C21 -/

/-- **C21.** After a successful `add` (no short transfers): there is one more keyslot, the last one, which the new password opens to the same data
key; only the 416 header bytes changed; every password that decrypted the file still does, to the same plaintext; and the new password
decrypts it to the plaintext of the old one (provided it does not by accident open an older slot to something else). -/
theorem C21_add (C : Crypto) (hC : C.Lawful) (req : NewKeyRequest) (w w' : World) (hd : Header) (ks : List Keyslot) (aad : Bytes)
    (hf : KeyFile (w.rest req.handle) hd ks aad) (hshort : ∀ k, Io.short k ∉ w.sched) (hok : add C req w = (.ok (), w')) :
    ∃ mk k content' hd', HeaderReplaced req.handle w w' content' ∧ KeyFile content' hd' (ks ++ [k]) aad ∧
      hd'.headerType = hd.headerType ∧ hd'.nonce = hd.nonce ∧
      Recovers C req.rawKeyOld hd mk ∧ Opens C hd.headerType.algorithm req.rawKeyNew k mk ∧
      (∀ pw p, DecryptsTo C pw (w.rest req.handle) p → DecryptsTo C pw content' p) ∧
      (∀ p, DecryptsTo C req.rawKeyOld (w.rest req.handle) p → OnlyOpens C hd.headerType.algorithm req.rawKeyNew ks mk →
        DecryptsTo C req.rawKeyNew content' p) := by
  obtain ⟨b, k0, af, mk, k, j, hsp, ho, hb, hmk, h4, hsl, hkok, _, hj, hrep⟩ := add_effect hC hf hok
  have := hj hshort; subst this
  have hsz := isHeader_sized hf.header
  have hks := hsz.2 ks hf.slots
  have hall : ∀ x ∈ ks ++ [k], SlotOk hd.headerType.algorithm x := by
    intro x hx
    rcases List.mem_append.1 hx with hx | hx
    · exact hks.2 x hx
    · rw [List.mem_singleton.1 hx]; exact hkok
  have hlen : (ks ++ [k]).length ≤ 4 := by simp; omega
  have hH := bytesV5_length hsz.1 hlen hall
  rw [List.take_of_length_le (by omega)] at hrep
  have hf' := hf.written hlen hall ((w.rest req.handle).drop 416)
  have hr : Recovers C req.rawKeyOld hd mk := hf.recovers.2 ⟨b, k0, af, hsp, ho, hb⟩
  have hdrop : (bytesV5 hd.headerType hd.nonce (ks ++ [k]) ++ (w.rest req.handle).drop 416).drop 416 = (w.rest req.handle).drop 416 :=
    List.drop_left' hH
  refine ⟨mk, k, _, _, hrep, hf', rfl, rfl, hr, hsl.opens hC, ?_, ?_⟩
  · intro pw p hp
    obtain ⟨h2, aad2, mk2, hi2, hr2, hb2⟩ := hp.fileOf hC
    obtain ⟨rfl, rfl⟩ := isHeader_unique hf.header hi2
    obtain ⟨b2, k2, a2, e2, o2, n2⟩ := hf.recovers.1 hr2
    apply Spec.FileOf.decrypts hC
    refine ⟨_, aad, mk2, hf'.header, hf'.recovers.2 ⟨b2, k2, a2 ++ [k], by rw [e2]; simp, o2, n2⟩, ?_⟩
    rw [hf.v5] at hb2
    simp only [hf.v5, headerSize]
    rw [hdrop]
    exact hb2
  · intro p hp honly
    have hbody := hf.body hC hr hp
    refine hf'.decrypts hC ⟨k, by simp, mk, hsl.opens hC⟩ ?_ (by rw [hdrop]; exact hbody)
    intro x hx m hm
    rcases List.mem_append.1 hx with hx | hx
    · exact honly x hx m hm
    · rw [List.mem_singleton.1 hx] at hm; exact hm.unique (hsl.opens hC)

/-- **C21.** `add` succeeds without I/O faults if the old password opens a slot (and the key in it is not all zero), fewer than four slots are in use
and the primitives work. -/
theorem C21_add_succeeds (C : Crypto) (hC : C.Lawful) (req : NewKeyRequest) (w : World) (hd : Header) (ks : List Keyslot) (aad mk : Bytes)
    (hs : w.sched = []) (hf : KeyFile (w.rest req.handle) hd ks aad) (hw : HashWorks C req.rawKeyOld ks)
    (hr : Recovers C req.rawKeyOld hd mk) (hmk : mk ≠ List.replicate 32 0) (h4 : ks.length < 4)
    (hp : PrimitivesWork C hd.headerType.algorithm req.hashAlgorithm req.rawKeyNew) :
    ∃ w', add C req w = (.ok (), w') := by
  obtain ⟨b, k0, af, hsp, ho, hb⟩ := hf.recovers.1 hr
  obtain ⟨f, hkf, hkdf⟩ := hp.hash
  obtain ⟨hk, hhk⟩ := Option.isSome_iff_exists.1 (hkdf (tape w 0 16))
  have hml : mk.length = 32 := ho.len hC (((isHeader_sized hf.header).2 ks hf.slots).2 k0 (by rw [hsp]; simp))
  obtain ⟨ek, hek⟩ := Option.isSome_iff_exists.1
    (hp.enc hk (tape w 16 (nonceLength hd.headerType.algorithm .memoryMode)) [] mk (hC.kdf_len _ _ _ _ hhk) (by simp)
      (by rw [hml]; decide))
  obtain ⟨k, _, h⟩ := add_nil hC hs hf hw hsp ho hb hmk (by omega) ⟨f, hkf, hhk⟩ hek
  exact ⟨_, h⟩

example : (add Example.toy exAdd (Example.world1 exFile)).1 = .ok () := by decide +kernel

/-! ### C22 -/

/-- **C22.** After a successful `change` (no short transfers): the first slot that the old password opened is replaced, in place, by one that the new
password opens to the same data key; only the header bytes changed; the new password decrypts the file; every password with another slot still does; the old
one is refused unless it opens another slot. -/
theorem C22_change (C : Crypto) (hC : C.Lawful) (req : NewKeyRequest) (w w' : World) (hd : Header) (ks : List Keyslot) (aad : Bytes)
    (hf : KeyFile (w.rest req.handle) hd ks aad) (hshort : ∀ k, Io.short k ∉ w.sched) (hok : change C req w = (.ok (), w')) :
    ∃ before k0 after mk k content' hd', ks = before ++ k0 :: after ∧
      Opens C hd.headerType.algorithm req.rawKeyOld k0 mk ∧ OpensNone C hd.headerType.algorithm req.rawKeyOld before ∧
      HeaderReplaced req.handle w w' content' ∧ KeyFile content' hd' (before ++ k :: after) aad ∧
      hd'.headerType = hd.headerType ∧ hd'.nonce = hd.nonce ∧ Opens C hd.headerType.algorithm req.rawKeyNew k mk ∧
      (∀ p, DecryptsTo C req.rawKeyOld (w.rest req.handle) p → OnlyOpens C hd.headerType.algorithm req.rawKeyNew before mk →
        DecryptsTo C req.rawKeyNew content' p) ∧
      (∀ pw p, DecryptsTo C pw (w.rest req.handle) p → OnlyOpens C hd.headerType.algorithm pw (k :: ks) mk →
        (∃ x ∈ before ++ after, ∃ m, Opens C hd.headerType.algorithm pw x m) → DecryptsTo C pw content' p) ∧
      (OpensNone C hd.headerType.algorithm req.rawKeyOld (k :: after) → Refuses C req.rawKeyOld content') := by
  obtain ⟨b, k0, af, mk, k, j, hsp, ho, hb, hmk, hsl, hkok, _, hj, hrep⟩ := change_effect hC hf hok
  have := hj hshort; subst this
  have hsz := isHeader_sized hf.header
  have hks := hsz.2 ks hf.slots
  have hall : ∀ x ∈ b ++ k :: af, SlotOk hd.headerType.algorithm x := by
    intro x hx
    rw [List.mem_append, List.mem_cons] at hx
    rcases hx with hx | rfl | hx
    · exact hks.2 x (by rw [hsp]; simp [hx])
    · exact hkok
    · exact hks.2 x (by rw [hsp]; simp [hx])
  have hlen : (b ++ k :: af).length ≤ 4 := by have := hks.1; rw [hsp] at this; simpa using this
  have hH := bytesV5_length hsz.1 hlen hall
  rw [List.take_of_length_le (by omega)] at hrep
  have hf' := hf.written hlen hall ((w.rest req.handle).drop 416)
  have hr : Recovers C req.rawKeyOld hd mk := hf.recovers.2 ⟨b, k0, af, hsp, ho, hb⟩
  have hdrop : (bytesV5 hd.headerType hd.nonce (b ++ k :: af) ++ (w.rest req.handle).drop 416).drop 416 = (w.rest req.handle).drop 416 :=
    List.drop_left' hH
  refine ⟨b, k0, af, mk, k, _, _, hsp, ho, hb, hrep, hf', rfl, rfl, hsl.opens hC, ?_, ?_, ?_⟩
  · intro p hp honly
    have hbody := hf.body hC hr hp
    obtain ⟨b1, k1, a1, e1, ⟨m1, o1⟩, f1⟩ := exists_first
      (P := fun k => ∃ m, Opens C hd.headerType.algorithm req.rawKeyNew k m) (l := b ++ [k]) (x := k) (by simp) ⟨mk, hsl.opens hC⟩
    have hm1 : m1 = mk := by
      have : k1 ∈ b ++ [k] := by rw [e1]; simp
      rcases List.mem_append.1 this with hx | hx
      · exact honly _ hx _ o1
      · rw [List.mem_singleton.1 hx] at o1; exact o1.unique (hsl.opens hC)
    subst hm1
    apply Spec.FileOf.decrypts hC
    refine ⟨_, aad, m1, hf'.header, hf'.recovers.2 ⟨b1, k1, a1 ++ af, ?_, o1, fun x hx m hm => f1 x hx ⟨m, hm⟩⟩, ?_⟩
    · rw [List.append_cons, e1]; simp
    · simp only [hf.v5, headerSize]
      rw [hdrop]; exact hbody
  · intro pw p hp honly ⟨x, hx, m, hm⟩
    obtain ⟨h2, aad2, mk2, hi2, hr2, hb2⟩ := hp.fileOf hC
    obtain ⟨rfl, rfl⟩ := isHeader_unique hf.header hi2
    obtain ⟨b2, k2, a2, e2, o2, n2⟩ := hf.recovers.1 hr2
    have hm2 : mk2 = mk := honly k2 (by rw [e2]; simp) _ o2
    subst hm2
    rw [hf.v5] at hb2
    refine hf'.decrypts hC ⟨x, ?_, m, hm⟩ ?_ (by rw [hdrop]; exact hb2)
    · rcases List.mem_append.1 hx with h | h <;> simp [h]
    · intro y hy m hm
      refine honly y ?_ m hm
      rw [List.mem_append, List.mem_cons] at hy
      rw [List.mem_cons, hsp, List.mem_append, List.mem_cons]
      rcases hy with h | h | h
      · exact .inr (.inl h)
      · exact .inl h
      · exact .inr (.inr (.inr h))
  · intro hno
    apply hf'.refuses hC
    intro y hy m hm
    rw [List.mem_append] at hy
    rcases hy with h | h
    · exact hb y h m hm
    · exact hno y h m hm

/-- **C22.** `change` succeeds without I/O faults if the old password opens a slot (and the key in it is not all zero) and the primitives work. -/
theorem C22_change_succeeds (C : Crypto) (hC : C.Lawful) (req : NewKeyRequest) (w : World) (hd : Header) (ks : List Keyslot) (aad mk : Bytes)
    (hs : w.sched = []) (hf : KeyFile (w.rest req.handle) hd ks aad) (hw : HashWorks C req.rawKeyOld ks)
    (hr : Recovers C req.rawKeyOld hd mk) (hmk : mk ≠ List.replicate 32 0)
    (hp : PrimitivesWork C hd.headerType.algorithm req.hashAlgorithm req.rawKeyNew) :
    ∃ w', change C req w = (.ok (), w') := by
  obtain ⟨b, k0, af, hsp, ho, hb⟩ := hf.recovers.1 hr
  obtain ⟨f, hkf, hkdf⟩ := hp.hash
  obtain ⟨hk, hhk⟩ := Option.isSome_iff_exists.1 (hkdf (tape w 0 16))
  have hml : mk.length = 32 := ho.len hC (((isHeader_sized hf.header).2 ks hf.slots).2 k0 (by rw [hsp]; simp))
  obtain ⟨ek, hek⟩ := Option.isSome_iff_exists.1
    (hp.enc hk (tape w 16 (nonceLength hd.headerType.algorithm .memoryMode)) [] mk (hC.kdf_len _ _ _ _ hhk) (by simp)
      (by rw [hml]; decide))
  obtain ⟨k, _, h⟩ := change_nil hC hs hf hw hsp ho hb hmk ⟨f, hkf, hhk⟩ hek
  exact ⟨_, h⟩

example : (change Example.toy exAdd (Example.world1 exFile)).1 = .ok () := by decide +kernel

/-! ### C23 -/

/-- **C23.** After a successful `delete` (no short transfers): exactly the first slot that the password opened is gone, the others are there in the same
order, only the header bytes changed; every password with another slot still decrypts the file; the deleted one is refused unless it
opens another slot. -/
theorem C23_delete (C : Crypto) (hC : C.Lawful) (h : Nat) (pw : Bytes) (w w' : World) (hd : Header) (ks : List Keyslot) (aad : Bytes)
    (hf : KeyFile (w.rest h) hd ks aad) (hshort : ∀ k, Io.short k ∉ w.sched) (hok : delete C h pw w = (.ok (), w')) :
    ∃ before k0 after mk content' hd', ks = before ++ k0 :: after ∧
      Opens C hd.headerType.algorithm pw k0 mk ∧ OpensNone C hd.headerType.algorithm pw before ∧
      HeaderReplaced h w w' content' ∧ KeyFile content' hd' (before ++ after) aad ∧
      hd'.headerType = hd.headerType ∧ hd'.nonce = hd.nonce ∧
      (∀ pw' p, DecryptsTo C pw' (w.rest h) p → OnlyOpens C hd.headerType.algorithm pw' ks mk →
        (∃ x ∈ before ++ after, ∃ m, Opens C hd.headerType.algorithm pw' x m) → DecryptsTo C pw' content' p) ∧
      (∀ pw', OpensNone C hd.headerType.algorithm pw' (before ++ after) → Refuses C pw' content') ∧
      (OpensNone C hd.headerType.algorithm pw after → Refuses C pw content') := by
  obtain ⟨b, k0, af, mk, j, hsp, ho, hb, hmk, _, hj, hrep⟩ := delete_effect hC hf hok
  have := hj hshort; subst this
  have hsz := isHeader_sized hf.header
  have hks := hsz.2 ks hf.slots
  have hall : ∀ x ∈ b ++ af, SlotOk hd.headerType.algorithm x := by
    intro x hx
    rcases List.mem_append.1 hx with hx | hx <;> exact hks.2 x (by rw [hsp]; simp [hx])
  have hlen : (b ++ af).length ≤ 4 := by have := hks.1; rw [hsp] at this; simp at this ⊢; omega
  have hH := bytesV5_length hsz.1 hlen hall
  rw [List.take_of_length_le (by omega)] at hrep
  have hf' := hf.written hlen hall ((w.rest h).drop 416)
  have hdrop : (bytesV5 hd.headerType hd.nonce (b ++ af) ++ (w.rest h).drop 416).drop 416 = (w.rest h).drop 416 :=
    List.drop_left' hH
  refine ⟨b, k0, af, mk, _, _, hsp, ho, hb, hrep, hf', rfl, rfl, ?_, fun pw' hno => hf'.refuses hC hno, ?_⟩
  · intro pw' p hp honly ⟨x, hx, m, hm⟩
    obtain ⟨h2, aad2, mk2, hi2, hr2, hb2⟩ := hp.fileOf hC
    obtain ⟨rfl, rfl⟩ := isHeader_unique hf.header hi2
    obtain ⟨b2, k2, a2, e2, o2, n2⟩ := hf.recovers.1 hr2
    have hm2 : mk2 = mk := honly k2 (by rw [e2]; simp) _ o2
    subst hm2
    rw [hf.v5] at hb2
    refine hf'.decrypts hC ⟨x, hx, m, hm⟩ ?_ (by rw [hdrop]; exact hb2)
    intro y hy m hm
    refine honly y ?_ m hm
    rcases List.mem_append.1 hy with h | h <;> (rw [hsp]; simp [h])
  · intro hno
    apply hf'.refuses hC
    intro y hy m hm
    rcases List.mem_append.1 hy with h | h
    · exact hb y h m hm
    · exact hno y h m hm

/-- **C23.** `delete` succeeds without I/O faults if the password opens a slot and the key in it is not all zero. -/
theorem C23_delete_succeeds (C : Crypto) (hC : C.Lawful) (h : Nat) (pw : Bytes) (w : World) (hd : Header) (ks : List Keyslot) (aad mk : Bytes)
    (hs : w.sched = []) (hf : KeyFile (w.rest h) hd ks aad) (hw : HashWorks C pw ks)
    (hr : Recovers C pw hd mk) (hmk : mk ≠ List.replicate 32 0) : ∃ w', delete C h pw w = (.ok (), w') := by
  obtain ⟨b, k0, af, hsp, ho, hb⟩ := hf.recovers.1 hr
  exact ⟨_, delete_nil hC hs hf hw hsp ho hb hmk⟩

example : (delete Example.toy 0 [112, 119] (Example.world1 exFile)).1 = .ok () := by decide +kernel

/-! ### C24 -/

/-- **C24.** Any sequence of key commands on a file whose keyslots belong to the passwords `l`, without I/O faults, gives the results that
the same commands give on the list `l`; afterwards, among the passwords `U` in play, exactly those in the resulting list decrypt the file (to the same plaintext)
and all others are refused; the bytes after the header never change.  Assumed of the passwords: the slots made for one are not opened by another
(`ToldApart`), and the primitives do not fail (`KeysWork`). -/
theorem C24_history (C : Crypto) (hC : C.Lawful) (h : Nat) (cmds : List KeyCmd) (w : World) (hd : Header) (ks : List Keyslot)
    (aad mk p : Bytes) (U l : List Bytes) (hs : w.sched = []) (hf : KeyFile (w.data h) hd ks aad)
    (hsl : SlotsFor C hd.headerType.algorithm mk U l ks) (hl : ∀ pw ∈ l, pw ∈ U) (hc : ∀ c ∈ cmds, ∀ pw ∈ c.passwords, pw ∈ U)
    (hw : KeysWork C hd.headerType.algorithm mk U) (ht : ToldApart C hd.headerType.algorithm mk U w cmds.length)
    (hmk : mk ≠ List.replicate 32 0) (hb : BodyOf C hd mk aad p ((w.data h).drop 416)) :
    (onFileAll C h cmds w).1 = (onListAll cmds l).1 ∧
    (∀ pw ∈ U, (pw ∈ (onListAll cmds l).2 → DecryptsTo C pw ((onFileAll C h cmds w).2.data h) p) ∧
      (pw ∉ (onListAll cmds l).2 → Refuses C pw ((onFileAll C h cmds w).2.data h))) ∧
    ((onFileAll C h cmds w).2.data h).drop 416 = (w.data h).drop 416 := by
  have h1 : (l.zip ks).map Prod.fst = l := List.map_fst_zip (Nat.le_of_eq hsl.1)
  have h2 : (l.zip ks).map Prod.snd = ks := List.map_snd_zip (Nat.le_of_eq hsl.1.symm)
  have hst : KeyState C hd.headerType hd.nonce aad mk ((w.data h).drop 416) U h l w :=
    ⟨hs, hl, rfl, hd, l.zip ks, by rw [h2]; exact hf, rfl, rfl, h1, hsl.2⟩
  obtain ⟨r1, r2⟩ := KeyState.steps hC hmk hw cmds hst hc ht
  exact ⟨r1, r2.decides hC (fun hd' e1 e2 => (bodyOf_congr e1 e2).2 hb), r2.body⟩

/-- **C24, with faults.** The same history under every schedule of failing and interrupted operations, and with primitives that may report errors: no
command ends in another way than `Ok` or an error; the commands that reported success, and no others, are those to be carried out on the list,
where all of them succeed; afterwards, among the passwords in play, exactly those in the resulting list decrypt the file, and all others are refused. -/
theorem C24_history_faults (C : Crypto) (hC : C.Lawful) (h : Nat) (cmds : List KeyCmd) (w : World) (hd : Header) (ks : List Keyslot)
    (aad mk p : Bytes) (U l : List Bytes) (hns : ∀ k, Io.short k ∉ w.sched) (hf : KeyFile (w.data h) hd ks aad)
    (hsl : SlotsFor C hd.headerType.algorithm mk U l ks) (hl : ∀ pw ∈ l, pw ∈ U) (hc : ∀ c ∈ cmds, ∀ pw ∈ c.passwords, pw ∈ U)
    (ht : ToldApart C hd.headerType.algorithm mk U w cmds.length)
    (hb : BodyOf C hd mk aad p ((w.data h).drop 416)) :
    let run := onFileAll C h cmds w
    let list := onListAll (successes cmds run.1) l
    (∀ r ∈ run.1, ∀ a, r ≠ .abort a) ∧ (∀ r ∈ list.1, r = .ok ()) ∧
    (∀ pw ∈ U, (pw ∈ list.2 → DecryptsTo C pw (run.2.data h) p) ∧ (pw ∉ list.2 → Refuses C pw (run.2.data h))) ∧
    (run.2.data h).drop 416 = (w.data h).drop 416 := by
  have h1 : (l.zip ks).map Prod.fst = l := List.map_fst_zip (Nat.le_of_eq hsl.1)
  have h2 : (l.zip ks).map Prod.snd = ks := List.map_snd_zip (Nat.le_of_eq hsl.1.symm)
  have hst : KeyInv C hd.headerType hd.nonce aad mk ((w.data h).drop 416) U h l w :=
    ⟨hl, rfl, hd, l.zip ks, by rw [h2]; exact hf, rfl, rfl, h1, hsl.2⟩
  obtain ⟨r1, r2, r3⟩ := KeyInv.steps hC cmds hst hns hc ht
  exact ⟨r1, r2, r3.decides hC (fun hd' e1 e2 => (bodyOf_congr e1 e2).2 hb), r3.body⟩

/-- **C24.** The starting point exists: encryption into an empty file leaves a file with one keyslot, for the password used, opened by no other
password of `U` that does not open the slot made from these random bytes. -/
theorem C24_start (C : Crypto) (hC : C.Lawful) (req : Encrypt.Request) (w w' : World) (U : List Bytes)
    (hv : req.headerType.version = .v5) (hh : req.headerWriter = none)
    (hne : req.reader ≠ req.writer) (hino : (w.fd req.reader).ino ≠ (w.fd req.writer).ino)
    (hshort : ∀ k, Io.short k ∉ w.sched) (hdest : w.data req.writer = [])
    (hapart : ∀ pw ∈ U, pw ≠ req.rawKey → ∀ k m, SealedSlot C req.headerType.algorithm (tape w 16 32) req.rawKey req.hashingAlgorithm
      (tape w 0 16) (tape w 48 (nonceLength req.headerType.algorithm .memoryMode)) k → ¬ Opens C req.headerType.algorithm pw k m)
    (hok : Encrypt.execute C req w = (.ok (), w')) :
    ∃ hd ks aad, hd.headerType = req.headerType ∧ KeyFile (w'.file (w.fd req.writer).ino) hd ks aad ∧
      SlotsFor C req.headerType.algorithm (tape w 16 32) U [req.rawKey] ks ∧
      BodyOf C hd (tape w 16 32) aad (w.data req.reader) ((w'.file (w.fd req.writer).ino).drop 416) := by
  obtain ⟨hb, aad, c, k, henc, hcont⟩ := encrypt_embedded_content hC req hh hne hino hshort hok
  obtain ⟨hk, ek, hto, hec, hel, hser, ha, hseal⟩ := henc.slot
  have hslok := freshSlot_ok (req := req) (w := w) hto hel
  have hnl : (freshHeader req w ek).nonce.length = nonceLength req.headerType.algorithm req.headerType.mode := by simp [freshHeader]
  have hsv := serialize_v5 (h := freshHeader req w ek) (ks := [freshSlot req w ek]) hv rfl (by simp)
  rw [hser] at hsv
  have hhb : hb = bytesV5 req.headerType (freshHeader req w ek).nonce [freshSlot req w ek] := by cases hsv; rfl
  obtain ⟨hb', aad', hser', ha', hlen, hi⟩ := freshHeader_bytes (w := w) hto hel henc.version
  rw [hser] at hser'; cases hser'
  rw [ha] at ha'; cases ha'
  rw [hcont, hdest, List.drop_nil, List.append_nil]
  have hi := hi c
  rw [hv] at hlen
  simp only [hv] at hi
  refine ⟨_, [freshSlot req w ek], aad, rfl, ⟨hi, hv, rfl, ?_⟩, ⟨rfl, ?_⟩, ?_⟩
  · intro b hb
    have h24 := nonceLength_le req.headerType.algorithm req.headerType.mode
    have e : slice (bytesV5 req.headerType (freshHeader req w ek).nonce [freshSlot req w ek] ++ c)
        (6 + nonceLength req.headerType.algorithm req.headerType.mode)
        (26 - nonceLength req.headerType.algorithm req.headerType.mode) =
        zeros (26 - nonceLength req.headerType.algorithm req.headerType.mode) := by
      simp only [bytesV5, slice]
      rw [List.append_assoc, List.append_assoc, List.append_assoc, List.drop_left' (by simp [hnl]),
        List.take_left' (by simp)]
    rw [hhb, e] at hb
    exact (List.mem_replicate.1 hb).2
  · intro q hq
    have hq : q = (req.rawKey, freshSlot req w ek) := by simpa using hq
    subst hq
    exact ⟨freshSlot_opens hC hto hec, fun pw hpw hne m => hapart pw hpw hne _ m ⟨rfl, rfl, rfl, hk, hto, hec⟩⟩
  · rw [List.drop_left' (show hb.length = 416 from hlen), bodyOf_stream (by exact henc.mode)]
    exact hseal

/-! A history: the passwords `[112, 119]`, `[9, 9]` and `[7]` on the example file. -/

def exU : List Bytes := [[112, 119], [9, 9], [7]]

theorem toy_apart {a : Algorithm} {n : Nat} {mk pw pw' salt nonce m : Bytes} {h : HashingAlgorithm} {k : Keyslot}
    (hk : SealedSlot (Example.toy n) a mk pw h salt nonce k)
    (hn : ∀ f, kdfParams h = some f → Example.toyTag (Example.toyKdf f pw salt) nonce [] mk ≠ Example.toyTag (Example.toyKdf f pw' salt) nonce [] mk) :
    ¬ Opens (Example.toy n) a pw' k m := by
  intro ho
  obtain ⟨ha, hs, hn', hk1, ⟨f, hf, hkdf⟩, henc⟩ := hk
  obtain ⟨hk2, ⟨f', hf', hkdf'⟩, hdec⟩ := ho
  rw [ha, hf] at hf'; cases hf'
  rw [hs] at hkdf'
  have e1 := Option.some.inj hkdf
  have e2 := Option.some.inj hkdf'
  have e3 := Option.some.inj henc
  subst e1 e2
  rw [hn', ← e3] at hdec
  simp only [Example.toy, Example.toyDec] at hdec
  rw [List.take_left' (by simp [Example.toyTag])] at hdec
  split at hdec
  · next e => exact hn f hf (List.append_cancel_left e)
  · simp at hdec

/-- The hypotheses of `C24_start` are met by an encryption with `[112, 119]` when `[9, 9]` is the other password. -/
example : (Encrypt.execute Example.toy (exRequest exV5 (.argon2id 3)) (Example.world fun i => if i = 0 then [1, 2, 3] else [])).1 = .ok () ∧
    ∀ k m, SealedSlot Example.toy .aes256Gcm (tape (Example.world fun i => if i = 0 then [1, 2, 3] else []) 16 32) [112, 119] (.argon2id 3)
      (tape (Example.world fun i => if i = 0 then [1, 2, 3] else []) 0 16)
      (tape (Example.world fun i => if i = 0 then [1, 2, 3] else []) 48 12) k → ¬ Opens Example.toy .aes256Gcm [9, 9] k m := by
  refine ⟨by decide +kernel, fun k m hk => toy_apart hk fun f hf => ?_⟩
  have hf : f = .argon2id 262144 10 4 := by simpa [kdfParams] using hf.symm
  subst hf
  decide +kernel

theorem exTold (n : Nat)
    (hn : ∀ i ≤ n * 28, ∀ pw ∈ exU, ∀ pw' ∈ exU, pw ≠ pw' → ∀ h ∈ supportedHashes, ∀ f, kdfParams h = some f →
      Example.toyTag (Example.toyKdf f pw (tape (Example.world1 exFile) i 16)) (tape (Example.world1 exFile) (i + 16) 12) [] (List.replicate 32 5) ≠
      Example.toyTag (Example.toyKdf f pw' (tape (Example.world1 exFile) i 16)) (tape (Example.world1 exFile) (i + 16) 12) [] (List.replicate 32 5)) :
    ToldApart Example.toy .aes256Gcm (List.replicate 32 5) exU (Example.world1 exFile) n := by
  intro i hi pw hpw pw' hpw' hne h k m hk
  exact toy_apart hk fun f hf => hn i hi pw hpw pw' hpw' hne h (kdfParams_mem.2 ⟨f, hf⟩) f hf

/-- Decidable form of the condition. -/
def exToldCheck (n : Nat) : Bool :=
  (List.range (n * 28 + 1)).all fun i => exU.all fun pw => exU.all fun pw' => pw == pw' || supportedHashes.all fun h =>
    match kdfParams h with
    | none => true
    | some f =>
      Example.toyTag (Example.toyKdf f pw (tape (Example.world1 exFile) i 16)) (tape (Example.world1 exFile) (i + 16) 12) [] (List.replicate 32 5) !=
      Example.toyTag (Example.toyKdf f pw' (tape (Example.world1 exFile) i 16)) (tape (Example.world1 exFile) (i + 16) 12) [] (List.replicate 32 5)

theorem exTold_of {n : Nat} (h : exToldCheck n = true) :
    ToldApart Example.toy .aes256Gcm (List.replicate 32 5) exU (Example.world1 exFile) n := by
  apply exTold
  intro i hi pw hpw pw' hpw' hne hh hs f hf
  simp only [exToldCheck, List.all_eq_true, List.mem_range] at h
  have := h i (by omega) pw hpw pw' hpw'
  simp only [Bool.or_eq_true, beq_iff_eq, hne, false_or, List.all_eq_true] at this
  have := this hh hs
  rw [hf] at this
  simpa using this

/-- The hypotheses of the theorem are met by this file and the four commands below. -/
def exCmds : List KeyCmd :=
  [.add [112, 119] [9, 9] (.blake3Balloon 5), .change [112, 119] [7] (.argon2id 1), .verify [112, 119], .delete [9, 9]]

/-- The same commands when the first read fails: the first command is not carried out, and so the last one is refused. -/
example : (onFileAll Example.toy 0 exCmds { Example.world1 exFile with sched := [.fail] }).1 =
      [.err .headerDeserialize, .ok (), .err .incorrectKey, .err .incorrectKey] ∧
    successes exCmds [.err .headerDeserialize, .ok (), .err .incorrectKey, .err .incorrectKey] = [.change [112, 119] [7] (.argon2id 1)] :=
  ⟨by decide +kernel, rfl⟩

example : KeyFile ((Example.world1 exFile).data 0) exHeader [ex19Slot] (ex19Aad (List.replicate 8 1)) ∧
    SlotsFor Example.toy .aes256Gcm (List.replicate 32 5) exU [[112, 119]] [ex19Slot] ∧
    KeysWork Example.toy .aes256Gcm (List.replicate 32 5) exU ∧
    ToldApart Example.toy .aes256Gcm (List.replicate 32 5) exU (Example.world1 exFile) exCmds.length ∧
    BodyOf Example.toy exHeader (List.replicate 32 5) (ex19Aad (List.replicate 8 1)) [1, 2, 3] (((Example.world1 exFile).data 0).drop 416) ∧
    onListAll exCmds [[112, 119]] = ([.ok (), .ok (), .err .incorrectKey, .ok ()], [[7]]) := by
  refine ⟨exFile_key, ⟨rfl, ?_⟩, ⟨fun _ _ _ _ _ _ => rfl, fun _ _ _ _ => rfl⟩, exTold_of (by decide +kernel), ?_, by decide +kernel⟩
  · intro q hq
    have hq : q = ([112, 119], ex19Slot) := by simpa using hq
    subst hq
    refine ⟨ex19_opens, ?_⟩
    intro pw hpw hne m
    refine toy_apart (salt := List.replicate 16 9) (nonce := List.replicate 12 8) (pw := [112, 119]) (mk := List.replicate 32 5) (h := .argon2id 3)
      ⟨rfl, rfl, rfl, _, ⟨_, rfl, rfl⟩, rfl⟩ fun f hf => ?_
    have hf : f = .argon2id 262144 10 4 := by simpa [kdfParams] using hf.symm
    subst hf
    simp only [exU, List.mem_cons, List.not_mem_nil, or_false] at hpw
    rcases hpw with rfl | rfl | rfl
    · exact absurd rfl hne
    · decide +kernel
    · decide +kernel
  · refine ⟨by decide, ?_⟩
    rw [show ((Example.world1 exFile).data 0).drop 416 = ex19Body by decide +kernel]
    exact .last (by decide) (by decide +kernel)

/-! ### C25 -/

/-- **C25.** Under every I/O schedule, every key operation on every file returns `Ok` or an error; an error means that no file has changed; `verify`
never changes a file. -/
theorem C25_errors_change_nothing (C : Crypto) (hC : C.Lawful) (req : NewKeyRequest) (h : Nat) (pw : Bytes) (w : World) :
    ((add C req w).1 = .ok () ∨ ∃ e, (add C req w).1 = .err e ∧ (add C req w).2.file = w.file) ∧
    ((change C req w).1 = .ok () ∨ ∃ e, (change C req w).1 = .err e ∧ (change C req w).2.file = w.file) ∧
    ((delete C h pw w).1 = .ok () ∨ ∃ e, (delete C h pw w).1 = .err e ∧ (delete C h pw w).2.file = w.file) ∧
    (((verify C h pw w).1 = .ok () ∨ ∃ e, (verify C h pw w).1 = .err e) ∧ (verify C h pw w).2.file = w.file) := by
  refine ⟨?_, ?_, ?_, ?_⟩
  · rcases add_safe hC req w with ⟨_, w', he⟩ | ⟨e, w', he, hf, _⟩
    · exact .inl (by rw [he])
    · exact .inr ⟨e, by rw [he], by rw [he]; exact hf⟩
  · rcases change_safe hC req w with ⟨_, w', he⟩ | ⟨e, w', he, hf, _⟩
    · exact .inl (by rw [he])
    · exact .inr ⟨e, by rw [he], by rw [he]; exact hf⟩
  · rcases delete_safe hC h pw w with ⟨_, w', he⟩ | ⟨e, w', he, hf, _⟩
    · exact .inl (by rw [he])
    · exact .inr ⟨e, by rw [he], by rw [he]; exact hf⟩
  · obtain ⟨r, w', he, hr, hf, _⟩ := verify_safe hC h pw w
    rw [he]; exact ⟨hr, hf⟩

/-- Errors do occur: a wrong password, and a failing read. -/
example : (add Example.toy { exAdd with rawKeyOld := [1] } (Example.world1 exFile)).1 = .err .incorrectKey ∧
    (delete Example.toy 0 [112, 119] { Example.world1 exFile with sched := [.fail] }).1 = .err .headerDeserialize ∧
    (delete Example.toy 0 [112, 119] { Example.world1 exFile with sched := [.full, .full, .full, .full, .fail] }).1 = .err .headerWrite := by
  refine ⟨?_, ?_, ?_⟩ <;> decide +kernel

/-! ### C26 -/

/-- **C26.** On a V5 header, with hashing working and without I/O faults, `verify` says yes exactly when this password recovers a data key from the header (`Recovers`, as in C18)
and that key is not all zero; otherwise it answers `IncorrectKey`. -/
theorem C26_verify (C : Crypto) (hC : C.Lawful) (h : Nat) (pw : Bytes) (w : World) (hd : Header) (ks : List Keyslot) (aad : Bytes)
    (hs : w.sched = []) (hi : IsHeader (w.rest h) hd aad) (hv : hd.headerType.version = .v5) (hk : hd.keyslots = some ks)
    (hw : HashWorks C pw ks) :
    ((verify C h pw w).1 = .ok () ↔ ∃ mk, Recovers C pw hd mk ∧ mk ≠ List.replicate 32 0) ∧
    ((verify C h pw w).1 = .ok () ∨ (verify C h pw w).1 = .err .incorrectKey) := by
  rw [verify_nil hs hi hv hk]
  have hks := (isHeader_sized hi).2 ks hk
  rcases withIndex_cases hC pw hks.2 with ⟨mk', b, k', af, h1, h2, h3, h4, h5, h6⟩ | ⟨h1, h2⟩ | ⟨h1, k', h2, h3⟩
  · rw [h1]
    refine ⟨⟨fun _ => ⟨mk', ?_, h6⟩, fun _ => rfl⟩, .inl rfl⟩
    simp only [Recovers, hv]; exact ⟨b, k', af, by rw [hk, h2], h3, h4⟩
  · rw [h1]
    refine ⟨⟨fun h => by simp [Res.bind] at h, ?_⟩, .inr rfl⟩
    rintro ⟨mk, hm, hz⟩
    simp only [Recovers, hv] at hm
    obtain ⟨b1, k1, a1, e1, o1, n1⟩ := hm
    rw [hk] at e1; cases e1
    rcases h2 with hno | ⟨b, k', af, e, o, n⟩
    · exact absurd o1 (hno k1 (by simp) _)
    · obtain ⟨_, rfl, _⟩ := first_split_unique (P := fun k => ∃ m, Opens C hd.headerType.algorithm pw k m)
        e ⟨_, o1⟩ ⟨_, o⟩ (by rintro y hy ⟨m, hm⟩; exact n1 y hy m hm) (by rintro y hy ⟨m, hm⟩; exact n y hy m hm)
      exact absurd (o1.unique o) hz
  · obtain ⟨hk', hh⟩ := hw k' h2
    exact absurd hh (h3 _)

/-- **C26.** The exception is real: a file whose data key is all zero decrypts with the password that `verify` calls incorrect. -/
theorem C26_zero_key (C : Crypto) (hC : C.Lawful) (h : Nat) (pw : Bytes) (w : World) (hd : Header) (ks : List Keyslot) (aad p : Bytes)
    (hs : w.sched = []) (hi : IsHeader (w.rest h) hd aad) (hv : hd.headerType.version = .v5) (hk : hd.keyslots = some ks)
    (hw : HashWorks C pw ks) (hr : Recovers C pw hd (List.replicate 32 0))
    (hb : BodyOf C hd (List.replicate 32 0) aad p ((w.rest h).drop 416)) :
    (verify C h pw w).1 = .err .incorrectKey ∧ DecryptsTo C pw (w.rest h) p := by
  constructor
  · obtain ⟨h1, h2⟩ := C26_verify C hC h pw w hd ks aad hs hi hv hk hw
    rcases h2 with h2 | h2
    · obtain ⟨mk, hm, hz⟩ := h1.1 h2
      exact absurd (hm.unique hr) hz
    · exact h2
  · exact Spec.FileOf.decrypts hC ⟨hd, aad, _, hi, hr, by rw [hv]; exact hb⟩

example : (verify Example.toy 0 [112, 119] (Example.world1 exFile)).1 = .ok () ∧
    (verify Example.toy 0 [112, 120] (Example.world1 exFile)).1 = .err .incorrectKey := by
  constructor <;> decide +kernel

/-! ### C27 -/

/-- **C27.** `delete` does not protect the only key: with the right password it succeeds on a file with one keyslot, and afterwards every password is
refused. -/
theorem C27_last_key (C : Crypto) (hC : C.Lawful) (h : Nat) (pw : Bytes) (w : World) (hd : Header) (k : Keyslot) (aad mk : Bytes)
    (hs : w.sched = []) (hf : KeyFile (w.rest h) hd [k] aad) (ho : Opens C hd.headerType.algorithm pw k mk)
    (hmk : mk ≠ List.replicate 32 0) :
    ∃ w' content', delete C h pw w = (.ok (), w') ∧ HeaderReplaced h w w' content' ∧ ∀ pw', Refuses C pw' content' := by
  have hw : HashWorks C pw [k] := by
    intro x hx
    rw [List.mem_singleton.1 hx]
    obtain ⟨hk, h1, _⟩ := ho
    exact ⟨hk, h1⟩
  have hok := delete_nil hC hs hf hw (before := []) (after := []) rfl ho (by intro x hx; simp at hx) hmk
  obtain ⟨b, k0, af, mk', c', hd', hsp, _, _, hrep, hf', _, _, _, href, _⟩ := C23_delete C hC h pw w _ hd [k] aad hf (by simp [hs]) hok
  refine ⟨_, c', hok, hrep, fun pw' => href pw' ?_⟩
  have : b = [] ∧ af = [] := by
    cases b with
    | nil => simp at hsp; exact ⟨rfl, hsp.2⟩
    | cons x b => simp at hsp
  rw [this.1, this.2]
  intro x hx; simp at hx

example : Opens Example.toy exHeader.headerType.algorithm [112, 119] ex19Slot (List.replicate 32 5) ∧
    KeyFile ((Example.world1 exFile).rest 0) exHeader [ex19Slot] (ex19Aad (List.replicate 8 1)) :=
  ⟨ex19_opens, exFile_key⟩

/-! ### C29 -/

/-- **C29.** With four keyslots in use `add` never succeeds and, under every schedule, changes no file; without faults and with a right password
the error is `TooManyKeyslots`. -/
theorem C29_full (C : Crypto) (hC : C.Lawful) (req : NewKeyRequest) (w : World) (hd : Header) (ks : List Keyslot) (aad : Bytes)
    (hf : KeyFile (w.rest req.handle) hd ks aad) (h4 : ks.length = 4) :
    (∃ e, (add C req w).1 = .err e) ∧ (add C req w).2.file = w.file ∧
    (w.sched = [] → HashWorks C req.rawKeyOld ks → (∃ mk, Recovers C req.rawKeyOld hd mk ∧ mk ≠ List.replicate 32 0) →
      (add C req w).1 = .err .tooManyKeyslots) := by
  have hnot : ∀ w', add C req w ≠ (.ok (), w') := by
    intro w' hok
    obtain ⟨_, _, _, _, _, _, _, _, _, _, h, _⟩ := add_effect hC hf hok
    omega
  rcases add_safe hC req w with ⟨_, w', he⟩ | ⟨e, w', he, hfile, _⟩
  · exact absurd he (hnot w')
  · refine ⟨⟨e, by rw [he]⟩, by rw [he]; exact hfile, ?_⟩
    rintro hs hw ⟨mk, hr, hmk⟩
    obtain ⟨b, k0, af, hsp, ho, hb⟩ := hf.recovers.1 hr
    have hks := (isHeader_sized hf.header).2 ks hf.slots
    have hidx := withIndex_found hC hks.2 hw hsp ho hb hmk
    rcases add_loaded hC (load_nil hs hf.header hf.v5 hf.slots) hks.2 with ⟨e, _, h1⟩ | ⟨mk', i, h1, ⟨_, h⟩ | ⟨hne, _⟩⟩
    · rw [hidx] at h1; simp at h1
    · rw [h]
    · exact absurd h4 hne

/-- **C29.** Every key operation that succeeds (no short transfers) leaves a well-formed header with at most four keyslots. -/
theorem C29_at_most_four (C : Crypto) (hC : C.Lawful) (req : NewKeyRequest) (h : Nat) (pw : Bytes) (w w' : World) (hd : Header)
    (ks : List Keyslot) (aad : Bytes) (hshort : ∀ k, Io.short k ∉ w.sched) :
    (KeyFile (w.rest req.handle) hd ks aad → (add C req w = (.ok (), w') ∨ change C req w = (.ok (), w')) →
      ∃ content' hd' ks', HeaderReplaced req.handle w w' content' ∧ KeyFile content' hd' ks' aad ∧ ks'.length ≤ 4) ∧
    (KeyFile (w.rest h) hd ks aad → delete C h pw w = (.ok (), w') →
      ∃ content' hd' ks', HeaderReplaced h w w' content' ∧ KeyFile content' hd' ks' aad ∧ ks'.length ≤ 4) := by
  refine ⟨?_, ?_⟩
  · rintro hf (hok | hok)
    · obtain ⟨_, _, c', hd', h1, h2, _⟩ := C21_add C hC req w w' hd ks aad hf hshort hok
      exact ⟨c', hd', _, h1, h2, ((isHeader_sized h2.header).2 _ h2.slots).1⟩
    · obtain ⟨_, _, _, _, _, c', hd', _, _, _, h1, h2, _⟩ := C22_change C hC req w w' hd ks aad hf hshort hok
      exact ⟨c', hd', _, h1, h2, ((isHeader_sized h2.header).2 _ h2.slots).1⟩
  · intro hf hok
    obtain ⟨_, _, _, _, c', hd', _, _, _, h1, h2, _⟩ := C23_delete C hC h pw w w' hd ks aad hf hshort hok
    exact ⟨c', hd', _, h1, h2, ((isHeader_sized h2.header).2 _ h2.slots).1⟩

end Volaris.Props
