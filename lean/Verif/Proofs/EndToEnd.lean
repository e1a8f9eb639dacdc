import Verif.Proofs.Encrypt
import Verif.Spec.Behaviour
import Verif.Spec.Toy
namespace Volaris
open Spec

/-- For concrete runs: only the result has to be evaluated. -/
theorem run_of_fst {ε α : Type} {x : Res ε α × World} {r : Res ε α} (h : x.1 = r) : x = (r, x.2) := by
  cases x; simp only at h; rw [h]

theorem Spec.FileOf.decrypts {C : Crypto} (hC : C.Lawful) {pw content p : Bytes} (h : FileOf C pw content p) :
    DecryptsTo C pw content p := by
  obtain ⟨hd, aad, mk, hi, hr, hb⟩ := h
  intro req v ha hs
  have hc := ha.content
  have hk := ha.key
  subst hc hk
  obtain ⟨v', he, _, hcore⟩ := decrypt_embedded_nil hC req ha.embedded ha.handles hs ha.files hi hr hb
  exact ⟨v', he, wrote_of_core ha.handles hcore⟩

theorem wrote_of_detached {rh wh hr : Nat} (hne : rh ≠ wh) (hhw : hr ≠ wh) {w w' : World} {k n : Nat} {out : Bytes}
    (h : w'.core = (((w.setPos hr k).setPos rh n).put wh out).core) : Wrote wh w w' out ∧ Touches [hr, rh] [wh] w w' := by
  have hfd : ((w.setPos hr k).setPos rh n).fd wh = w.fd wh := by
    rw [World.setPos_fd_ne _ _ (Ne.symm hne), World.setPos_fd_ne _ _ (Ne.symm hhw)]
  constructor
  · constructor
    · rw [World.file_of_core h, ← hfd, World.put_file_same]; simp
    · rw [World.fd_of_core h, World.put_fd_same, hfd]
  · exact (((Touches.setPos (R := [hr, rh]) (W := [wh]) (by simp)).trans (Touches.setPos (by simp))).trans
      (Touches.put (by simp))).core_right h

theorem Spec.DetachedFileOf.decrypts {C : Crypto} (hC : C.Lawful) {pw hdr content p : Bytes}
    (h : DetachedFileOf C pw hdr content p) : DetachedDecryptsTo C pw hdr content p := by
  obtain ⟨hd, aad, mk, hi, hr, hb⟩ := h
  intro req v hh ha hs
  have hc := ha.content
  have hk := ha.key
  have hx := ha.hdr
  subst hc hk hx
  obtain ⟨v', k, n, he, _, hcore⟩ := decrypt_detached_nil hC req ha.detached ha.header.1 ha.handles hs ha.start ha.files hi hr hb
  exact ⟨v', he, wrote_of_detached ha.handles ha.header.2 hcore⟩

theorem put_nil_file {w w' : World} {wh : Nat} {out : Bytes} (h : w'.core = (w.put wh out).core) (ho : out = []) :
    w'.file = w.file := by
  subst ho
  rw [World.put_nil_core] at h
  exact World.file_of_core h

/-- A decryption in which nothing opens at the start is refused. -/
theorem refuses_of {C : Crypto} (hC : C.Lawful) {pw content : Bytes}
    (hno : ∀ hd aad mk n c q, IsHeader content hd aad → Recovers C pw hd mk →
      FirstCall hd (content.drop (headerSize hd.headerType.version)) n c →
      C.dec hd.headerType.algorithm mk n aad c = some q → False) : Refuses C pw content := by
  intro req v ha
  have hc := ha.content
  have hk := ha.key
  subst hc hk
  rcases decrypt_embedded_spec hC req ha.embedded ha.handles v ha.files with
    ⟨hd, aad, mk, m, p, w', _, hi, hr, _, _, _, _, n, c, q, hf, hdec⟩ | ⟨e, p, out, w', he, hcore, hout⟩
  · exact (hno _ _ _ _ _ _ hi hr hf hdec).elim
  · refine ⟨e, w', he, ?_⟩
    have : out = [] := by
      by_cases ho : out = []
      · exact ho
      · obtain ⟨hd, aad, mk, n, c, q, hi, hr, hf, hdec, _⟩ := hout ho
        exact (hno _ _ _ _ _ _ hi hr hf hdec).elim
    exact (put_nil_file hcore this).trans rfl

theorem detachedRefuses_of {C : Crypto} (hC : C.Lawful) {pw hdr content : Bytes}
    (hno : ∀ hd aad mk n c q, IsHeader hdr hd aad → Recovers C pw hd mk →
      FirstCall hd (detachedBody (headerSize hd.headerType.version) content) n c →
      C.dec hd.headerType.algorithm mk n aad c = some q → False) : DetachedRefuses C pw hdr content := by
  intro req v hh ha
  have hc := ha.content
  have hk := ha.key
  have hx := ha.hdr
  subst hc hk hx
  rcases decrypt_detached_spec hC req ha.detached ha.header.1 ha.handles v ha.start ha.files with
    ⟨hd, aad, mk, m, k, n, p, w', _, hi, hr, _, _, _, _, n, c, q, hf, hdec⟩ | ⟨e, k, n, out, w', he, hcore, hout⟩
  · exact (hno _ _ _ _ _ _ hi hr hf hdec).elim
  · refine ⟨e, w', he, ?_⟩
    have : out = [] := by
      by_cases ho : out = []
      · exact ho
      · obtain ⟨hd, aad, mk, n, c, q, hi, hr, hf, hdec, _⟩ := hout ho
        exact (hno _ _ _ _ _ _ hi hr hf hdec).elim
    exact (put_nil_file hcore this).trans rfl

theorem Sealed.plain_unique {C : Crypto} (hC : C.Lawful) {a : Algorithm} {key pre aad : Bytes} {i : Nat} {p c : Bytes}
    (h : Sealed C a key pre aad i p c) : ∀ {p' : Bytes}, Sealed C a key pre aad i p' c → p = p' := by
  have len : ∀ {n m c}, C.enc a key n aad m = some c → c.length = m.length + 16 := fun h => hC.enc_len _ _ _ _ _ _ h
  induction h with
  | last hi hp hc =>
    intro p' h'
    cases h' with
    | last hi' hp' hc' =>
      have h1 := hC.dec_enc _ _ _ _ _ _ hc
      have h2 := hC.dec_enc _ _ _ _ _ _ hc'
      rw [h1] at h2; exact Option.some.inj h2
    | next hi' hb' hc' ht' =>
      have h1 := len hc
      have h2 := len hc'
      simp only [List.length_append] at h1
      omega
  | @next i b p c cs hi hb hc ht ih =>
    intro p' h'
    generalize hx : c ++ cs = x at h'
    cases h' with
    | last hi' hp' hc' =>
      subst hx
      have h1 := len hc
      have h2 := len hc'
      simp only [List.length_append] at h2
      omega
    | @next _ b' q' c' cs' hi' hb' hc' ht' =>
      have h1 := len hc
      have h2 := len hc'
      obtain ⟨rfl, rfl⟩ := List.append_inj hx (by omega)
      have h1 := hC.dec_enc _ _ _ _ _ _ hc
      have h2 := hC.dec_enc _ _ _ _ _ _ hc'
      rw [h1] at h2
      rw [Option.some.inj h2, ih ht']

theorem Spec.BodyOf.unique {C : Crypto} (hC : C.Lawful) {hd : Header} {mk aad p p' body : Bytes}
    (h : BodyOf C hd mk aad p body) (h' : BodyOf C hd mk aad p' body) : p = p' := by
  cases hm : hd.headerType.mode with
  | memoryMode =>
    simp only [BodyOf, hm] at h h'
    have h1 := hC.dec_enc _ _ _ _ _ _ h
    have h2 := hC.dec_enc _ _ _ _ _ _ h'
    rw [h1] at h2; exact Option.some.inj h2
  | streamMode =>
    rw [bodyOf_stream hm] at h h'
    exact h.plain_unique hC h'

theorem Spec.FileOf.unique {C : Crypto} (hC : C.Lawful) {pw content p p' : Bytes} (h : FileOf C pw content p)
    (h' : FileOf C pw content p') : p = p' := by
  obtain ⟨hd, aad, mk, hi, hr, hb⟩ := h
  obtain ⟨hd', aad', mk', hi', hr', hb'⟩ := h'
  obtain ⟨rfl, rfl⟩ := isHeader_unique hi hi'
  have := hr.unique hr'; subst this
  exact hb.unique hC hb'

theorem decrypt_ok_fileOf {C : Crypto} (hC : C.Lawful) {pw content : Bytes} {req : Decrypt.Request} {v v' : World}
    (ha : Asks req v pw content) (hns : NoShort v.sched) (hok : Decrypt.execute C req v = (.ok (), v')) :
    ∃ p, FileOf C pw content p ∧ Wrote req.writer v v' p := by
  have hc := ha.content
  have hk := ha.key
  subst hc hk
  rcases decrypt_embedded_spec hC req ha.embedded ha.handles v ha.files with
    ⟨hd, aad, mk, m, p, w', he, hi, hr, _, hm, hb, hcore, _⟩ | ⟨e, p, out, w', he, _⟩
  · rw [hok] at he; cases he
    rw [hm (.inl hns), List.take_length] at hb
    exact ⟨p, ⟨hd, aad, mk, hi, hr, hb⟩, (wrote_of_core ha.handles hcore).1⟩
  · rw [hok] at he; simp at he

theorem Spec.FileOf.only {C : Crypto} (hC : C.Lawful) {pw content p : Bytes} (h : FileOf C pw content p) :
    OnlyDecryptsTo C pw content p := by
  intro req v v' ha hns hok
  obtain ⟨p', hf, hw⟩ := decrypt_ok_fileOf hC ha hns hok
  rw [h.unique hC hf]; exact hw

/-! ### The files an encryption leaves behind -/

theorem encrypt_embedded_content {C : Crypto} (hC : C.Lawful) (req : Encrypt.Request) (hh : req.headerWriter = none)
    (hne : req.reader ≠ req.writer) {w w' : World} (hino : (w.fd req.reader).ino ≠ (w.fd req.writer).ino)
    (hns : NoShort w.sched) (hok : Encrypt.execute C req w = (.ok (), w')) :
    ∃ hb aad c k, Encrypted C req w True hb aad (w.data req.reader) c k ∧
      w'.file (w.fd req.writer).ino = hb ++ c ++ (w.data req.writer).drop (hb ++ c).length := by
  obtain ⟨hb, aad, p, c, k, he, hcore⟩ := encrypt_embedded_ok hC req hh hne hino hok
  obtain ⟨hp, hk⟩ := he.whole hns
  subst hp
  refine ⟨hb, aad, c, k, { he with whole := fun _ => ⟨rfl, hk⟩ }, ?_⟩
  rw [List.take_of_length_le hk] at hcore
  have hfd : ((w.draw (drawn req)).setPos req.writer 0 |>.setPos req.reader (w.data req.reader).length).fd req.writer
      = { ino := (w.fd req.writer).ino, pos := 0 } := by
    rw [World.setPos_fd_ne _ _ (Ne.symm hne)]; simp
  rw [World.file_of_core hcore]
  have := World.put_file_same ((w.draw (drawn req)).setPos req.writer 0 |>.setPos req.reader (w.data req.reader).length)
    req.writer (hb ++ c)
  rw [hfd] at this
  simp only at this
  rw [this, writeAt_zero]
  rfl

theorem encrypt_detached_content {C : Crypto} (hC : C.Lawful) (req : Encrypt.Request) {hw : Nat}
    (hh : req.headerWriter = some hw) (hne : req.reader ≠ req.writer) (hhw : hw ≠ req.writer)
    {w w' : World} (hino : (w.fd req.reader).ino ≠ (w.fd req.writer).ino)
    (hinoh : (w.fd req.reader).ino ≠ (w.fd hw).ino) (hinow : (w.fd hw).ino ≠ (w.fd req.writer).ino)
    (hns : NoShort w.sched) (hok : Encrypt.execute C req w = (.ok (), w')) :
    ∃ hb aad c k, Encrypted C req w True hb aad (w.data req.reader) c k ∧
      w'.file (w.fd hw).ino = hb ++ (w.data hw).drop hb.length ∧
      w'.file (w.fd req.writer).ino = c ++ (w.data req.writer).drop c.length := by
  obtain ⟨hb, aad, p, c, k, he, hcore⟩ := encrypt_detached_ok hC req hh hne hino hinoh hok
  obtain ⟨hp, hk⟩ := he.whole hns
  subst hp
  refine ⟨hb, aad, c, k, { he with whole := fun _ => ⟨rfl, hk⟩ }, ?_, ?_⟩
  · rw [List.take_of_length_le hk] at hcore
    rw [World.file_of_core hcore, World.put_file_ne _ _ (by simpa using hinow), World.setPos_file]
    have := World.put_file_same (((w.draw (drawn req)).setPos req.writer 0).setPos hw 0) hw hb
    simp only [World.setPos_ino, World.setPos_fd_same, World.setPos_file, World.draw_file, World.draw_fd, writeAt_zero] at this
    rw [this]; rfl
  · rw [List.take_of_length_le hk] at hcore
    rw [World.file_of_core hcore]
    have h2 := World.put_file_same
      (((((w.draw (drawn req)).setPos req.writer 0).setPos hw 0).put hw hb).setPos req.reader (w.data req.reader).length)
      req.writer c
    have hfd : (((((w.draw (drawn req)).setPos req.writer 0).setPos hw 0).put hw hb).setPos req.reader
        (w.data req.reader).length).fd req.writer = { ino := (w.fd req.writer).ino, pos := 0 } := by
      rw [World.setPos_fd_ne _ _ (Ne.symm hne), World.put_fd_ne _ _ (Ne.symm hhw), World.setPos_fd_ne _ _ (Ne.symm hhw)]
      simp
    rw [hfd] at h2
    simp only [World.setPos_file] at h2
    rw [h2, World.put_file_ne _ _ (by simpa using Ne.symm hinow), writeAt_zero]
    rfl

theorem detachedBody_zeros (n : Nat) (c : Bytes) : detachedBody n (List.replicate n 0 ++ c) = c := by
  unfold detachedBody
  rw [if_pos]
  · simp
  · intro b hb
    rw [List.take_left' (by simp)] at hb
    exact (List.mem_replicate.1 hb).2

theorem no_recovery {C : Crypto} {pw bs : Bytes} {h : Header} {aad : Bytes} {ks : List Keyslot}
    (hi : IsHeader bs h aad) (hk : h.keyslots = some ks)
    (hno : ∀ k ∈ ks, ∀ m, ¬ Opens C h.headerType.algorithm pw k m) (mk : Bytes) : ¬ Recovers C pw h mk := by
  intro hr
  have hf := hi.fields
  revert hf hr
  simp only [Recovers]
  cases h.headerType.version <;> simp only [hk] <;> intro hr hf
  case v4 =>
    obtain ⟨k, ks', e, o⟩ := hr
    cases e
    exact hno k (by simp) _ o
  case v5 =>
    obtain ⟨b, k, a, e, o, _⟩ := hr
    cases e
    exact hno k (by simp) _ o
  all_goals simp at hf

theorem exists_first {α : Type} {P : α → Prop} {l : List α} {x : α} (hx : x ∈ l) (hp : P x) :
    ∃ b y a, l = b ++ y :: a ∧ P y ∧ ∀ z ∈ b, ¬ P z := by
  induction l with
  | nil => simp at hx
  | cons z l ih =>
    by_cases hz : P z
    · exact ⟨[], z, l, rfl, hz, by simp⟩
    · have : x ∈ l := by
        rcases List.mem_cons.1 hx with rfl | h
        · exact absurd hp hz
        · exact h
      obtain ⟨b, y, a, e, py, nb⟩ := ih this
      refine ⟨z :: b, y, a, by rw [e]; rfl, py, ?_⟩
      intro t ht
      rcases List.mem_cons.1 ht with rfl | h
      · exact hz
      · exact nb t h

end Volaris
