import Verif.Proofs.HeaderOps
import Verif.Spec.Example
/-!
# Properties of header dump, strip and restore
-/
namespace Volaris.Props
open Spec HeaderOps

/-- The header of the examples, and a file with this header. -/
def exH : Bytes := layoutV5 Example.headerV5.headerType Example.headerV5.nonce [Example.slotA, Example.slotB]

theorem exH_written : WrittenHeader .v5 exH := by
  refine .v5 .aes256Gcm .streamMode _ _ rfl (by decide) ?_
  intro k hk
  simp only [List.mem_cons, List.not_mem_nil, or_false] at hk
  rcases hk with rfl | rfl
  · exact Example.slotA_ok
  · exact Example.slotB_ok

/-- File 0 is the header and the body `[1, 2, 3]`, all other files are empty. -/
def exHW : World := Example.world fun i => if i = 0 then exH ++ [1, 2, 3] else []

theorem exHW_at : exHW.rest 0 = exH ++ [1, 2, 3] := rfl

theorem exHWorld_rest (s : List Io) : ({ exHW with sched := s } : World).rest 0 = exH ++ [1, 2, 3] := rfl

/-! ### C30 -/

/-- **C30.** Dumping a header that the program wrote (V3, V4 or V5) writes exactly its bytes — the first `headerSize` bytes of the
file — and changes nothing else.  Without faults it succeeds; with faults but without short transfers it either does exactly this or
fails without having written anything. -/
theorem C30_dump (v : HeaderVersion) (H body : Bytes) (hH : WrittenHeader v H) (r wr : Nat) (hne : r ≠ wr) (w : World)
    (hst : StandsAt w r H body) :
    (w.sched = [] → ∃ w', dump r wr w = (.ok (), w')) ∧
    (∀ w', dump r wr w = (.ok (), w') → (∀ k, Io.short k ∉ w.sched) →
      H = ((w.file (w.fd r).ino).drop (w.fd r).pos).take (headerSize v) ∧ Wrote wr w w' H ∧ Touches [r] [wr] w w') ∧
    (∀ e w', dump r wr w = (.err e, w') → SameFiles w w') ∧
    (∀ a, (dump r wr w).1 ≠ .abort a) := by
  obtain ⟨hd, aad, hi, hv, hser, hlen⟩ := hH.reads
  have hi : IsHeader (w.rest r) hd aad := by
    rw [show w.rest r = H ++ body from hst]; exact hi body
  refine ⟨fun hs => ⟨_, dump_nil hs hi hser⟩, ?_, ?_, ?_⟩
  · intro w' hok hns
    rcases dump_cases r wr w with ⟨hd2, aad2, H2, k, w2, he, hi2, hs2, hc, hcn⟩ | ⟨e, w2, he, _⟩
    · rw [hok] at he
      obtain ⟨-, rfl⟩ := Prod.mk.inj he
      obtain ⟨rfl, -⟩ := isHeader_unique hi hi2
      rw [hser] at hs2
      obtain rfl := Res.ok.inj hs2
      have hc := hcn hns
      refine ⟨?_, ⟨?_, ?_⟩, ?_⟩
      · rw [show (w.file (w.fd r).ino).drop (w.fd r).pos = H ++ body from hst, ← hlen, List.take_left]
      · rw [World.file_of_core hc]
        simp only [World.put, World.adv_ino, World.adv_file, if_true]
        rw [World.adv_fd_ne _ _ (Ne.symm hne)]
      · rw [World.fd_of_core hc]
        simp [World.adv_fd_ne _ _ (Ne.symm hne)]
      · exact ((Touches.adv (by simp)).trans (Touches.put (by simp))).core_right hc
    · rw [hok] at he; simp at he
  · intro e w' herr
    rcases dump_cases r wr w with ⟨hd2, aad2, H2, k, w2, he, _⟩ | ⟨e, w2, he, ht⟩
    · rw [herr] at he; simp at he
    · rw [herr] at he
      obtain ⟨-, rfl⟩ := Prod.mk.inj he
      exact ⟨funext fun i => ht.files i (by simp), ht.dir⟩
  · intro a ha
    rcases dump_cases r wr w with ⟨hd2, aad2, H2, k, w2, he, _⟩ | ⟨e, w2, he, ht⟩ <;> rw [he] at ha <;> simp at ha

example : ∃ w', dump 0 1 exHW = (.ok (), w') ∧ w'.file 1 = exH ∧ w'.file 0 = exHW.file 0 := by
  obtain ⟨w', h⟩ := (C30_dump .v5 exH [1, 2, 3] exH_written 0 1 (by decide) exHW exHW_at).1 rfl
  obtain ⟨_, hw, ht⟩ := (C30_dump .v5 exH [1, 2, 3] exH_written 0 1 (by decide) exHW exHW_at).2.1 w' h (by intro k hk; cases hk)
  refine ⟨w', h, ?_, ht.files 0 (by intro h hh; rw [List.mem_singleton.1 hh]; decide)⟩
  have e := hw.content
  rw [show (exHW.fd 1).pos = 0 from rfl, writeAt_zero, show exHW.file (exHW.fd 1).ino = [] from rfl] at e
  exact e.trans (by simp)

/-- **C30.** A file whose start is not a header, or is a V1 or V2 header, is refused: an error, and no file changes. -/
theorem C30_dump_refuses (r wr : Nat) (w : World) (hno : NoWritableHeader ((w.file (w.fd r).ino).drop (w.fd r).pos)) :
    ∃ e w', dump r wr w = (.err e, w') ∧ SameFiles w w' := by
  rcases dump_cases r wr w with ⟨hd, aad, H, k, w2, he, hi, hs, _⟩ | ⟨e, w2, he, ht⟩
  · exfalso
    rcases hno hd aad hi with hv | hv <;> simp [Header.serialize, hv] at hs
  · exact ⟨e, w2, he, funext fun i => ht.files i (by simp), ht.dir⟩

example : NoWritableHeader (((Example.world1 [1, 2, 3]).file 0).drop 0) := by
  intro h aad hi
  have := hi.size
  revert this
  cases h.headerType.version <;> intro h <;> exact absurd h (by decide)

/-- **C30.** Whatever V3, V4 or V5 header the file starts with — also one whose unused bytes are not zero — what is dumped has the size of
the header and reads as the same header. -/
theorem C30_dump_reads_back (hd : Header) (aad : Bytes) (r wr : Nat) (hne : r ≠ wr) (w w' : World)
    (hi : IsHeader ((w.file (w.fd r).ino).drop (w.fd r).pos) hd aad) (hns : ∀ k, Io.short k ∉ w.sched)
    (hok : dump r wr w = (.ok (), w')) :
    ∃ H aad', WrittenHeader hd.headerType.version H ∧ H.length = headerSize hd.headerType.version ∧ IsHeader H hd aad' ∧ Wrote wr w w' H := by
  rcases dump_cases r wr w with ⟨hd2, aad2, H, k, w2, he, hi2, hs2, hc, hcn⟩ | ⟨e, w2, he, _⟩
  · rw [hok] at he
    obtain ⟨-, rfl⟩ := Prod.mk.inj he
    obtain ⟨rfl, -⟩ := isHeader_unique hi hi2
    obtain ⟨H', h1, h2, aad', h3⟩ := hi.rewritten (by intro hv; simp [Header.serialize, hv] at hs2) (by intro hv; simp [Header.serialize, hv] at hs2)
    rw [h2] at hs2
    obtain rfl := Res.ok.inj hs2
    obtain ⟨_, _, _, _, _, hl⟩ := h1.reads
    refine ⟨H', aad', h1, hl, h3, ?_, ?_⟩
    · rw [World.file_of_core (hcn hns)]
      simp only [World.put, World.adv_ino, World.adv_file, if_true]
      rw [World.adv_fd_ne _ _ (Ne.symm hne)]
    · rw [World.fd_of_core (hcn hns)]
      simp [World.adv_fd_ne _ _ (Ne.symm hne)]
  · rw [hok] at he; simp at he

example : ∃ hd aad, IsHeader (exHW.rest 0) hd aad ∧ hd.headerType.version = .v5 := by
  obtain ⟨hd, aad, hi, hv, _⟩ := exH_written.reads
  exact ⟨hd, aad, hi _, hv⟩

/-! ### C31 -/

/-- **C31.** Stripping the header of a file (handle at its start): without faults it succeeds; under every schedule, when it
succeeds the first `headerSize` bytes are zero and the rest of the file and everything else is unchanged; when it fails, at most a
prefix of the header has been zeroed, and with `InvalidFile` nothing has changed. -/
theorem C31_strip (hd : Header) (aad : Bytes) (h : Nat) (w : World) (hp : (w.fd h).pos = 0)
    (hi : IsHeader (w.file (w.fd h).ino) hd aad) :
    (w.sched = [] → ∃ w', strip h w = (.ok (), w')) ∧
    (∀ w', strip h w = (.ok (), w') →
      w'.file (w.fd h).ino = List.replicate (headerSize hd.headerType.version) 0 ++
        (w.file (w.fd h).ino).drop (headerSize hd.headerType.version) ∧ Touches [] [h] w w') ∧
    (∀ e w', strip h w = (.err e, w') → Touches [] [h] w w' ∧ ∃ k ≤ headerSize hd.headerType.version, (e ≠ .write → k = 0) ∧
      w'.file (w.fd h).ino = List.replicate k 0 ++ (w.file (w.fd h).ino).drop k) ∧
    (∀ a, (strip h w).1 ≠ .abort a) := by
  have hi' : IsHeader (w.rest h) hd aad := by rw [World.rest_of_pos_zero hp]; exact hi
  have hfile : ∀ n (w' : World), w'.core = ((w.setPos h 0).put h (zeros n)).core →
      w'.file (w.fd h).ino = List.replicate n 0 ++ (w.file (w.fd h).ino).drop n := by
    intro n w' hc
    rw [World.file_of_core hc]
    have := World.put_file_same (w.setPos h 0) h (zeros n)
    simp only [World.setPos_fd_same, World.setPos_file] at this
    rw [this, writeAt_zero]
    simp [zeros]
  have htouch : ∀ n (w' : World), w'.core = ((w.setPos h 0).put h (zeros n)).core → Touches [] [h] w w' := by
    intro n w' hc
    exact ((Touches.setPos (by simp)).trans (Touches.put (by simp))).core_right hc
  refine ⟨fun hs => ⟨_, strip_nil hs hi'⟩, ?_, ?_, ?_⟩
  · intro w' hok
    rcases strip_cases h w with ⟨hd2, aad2, w2, he, hi2, hc⟩ | ⟨_, _, _, w2, he, _⟩ | ⟨e, w2, he, _⟩
    · rw [hok] at he
      obtain ⟨-, rfl⟩ := Prod.mk.inj he
      obtain ⟨rfl, -⟩ := isHeader_unique hi' hi2
      exact ⟨hfile _ _ hc, htouch _ _ hc⟩
    · rw [hok] at he; simp at he
    · rw [hok] at he; simp at he
  · intro e w' herr
    rcases strip_cases h w with ⟨hd2, aad2, w2, he, hi2, hc⟩ | ⟨hd2, aad2, k, w2, he, hi2, hk, hc⟩ | ⟨e2, w2, he, h2, ht⟩
    · rw [herr] at he; simp at he
    · rw [herr] at he
      obtain ⟨h1, rfl⟩ := Prod.mk.inj he
      obtain rfl := Res.err.inj h1
      obtain ⟨rfl, -⟩ := isHeader_unique hi' hi2
      exact ⟨htouch _ _ hc, k, hk, by simp, hfile _ _ hc⟩
    · rw [herr] at he
      obtain ⟨h1, rfl⟩ := Prod.mk.inj he
      refine ⟨?_, 0, by omega, by simp, ?_⟩
      · refine ⟨fun i _ => ht.files i (by simp), ht.inos, ?_, ht.dir, ht.nextIno, ht.nextFd, ht.stdin, ht.tty, ht.env, ht.out⟩
        intro x _ hx; exact ht.fds x hx (by simp)
      · rw [ht.files _ (by simp)]; simp
  · intro a ha
    rcases strip_cases h w with ⟨hd2, aad2, w2, he, hi2, hc⟩ | ⟨_, _, _, w2, he, _⟩ | ⟨e, w2, he, _⟩ <;> rw [he] at ha <;> simp at ha

example : ∃ hd aad, IsHeader (exHW.file (exHW.fd 0).ino) hd aad := by
  obtain ⟨hd, aad, hi, _⟩ := exH_written.reads
  exact ⟨hd, aad, hi _⟩

/-- **C31.** A file that does not start with a header is left as it is: `InvalidFile`, under every schedule. -/
theorem C31_strip_refuses (h : Nat) (w : World) (hno : NoHeader ((w.file (w.fd h).ino).drop (w.fd h).pos)) :
    ∃ w', strip h w = (.err .invalidFile, w') ∧ SameFiles w w' := by
  have hno : NoHeader (w.rest h) := hno
  rcases deserialize_cases h w with ⟨hd, aad, w1, he, hi, hc⟩ | ⟨e, w1, p, he, hc⟩
  · exact absurd hi (hno hd aad)
  · refine ⟨w1, Prog.bind_err (Prog.mapErr_err he), ?_, ?_⟩
    · rw [World.file_of_core hc]; rfl
    · rw [World.dir_of_core hc]; rfl

example : NoHeader (((Example.world1 [1, 2, 3]).file 0).drop 0) := by
  intro h aad hi
  have := hi.size
  revert this
  cases h.headerType.version <;> intro h <;> exact absurd h (by decide)

/-! ### C32 -/

/-- **C32.** Dumping the header of a file to an empty file, stripping it and restoring it from the dump gives back the file, and the other file
then is the header; nothing else changes. -/
theorem C32_dump_strip_restore (v : HeaderVersion) (H body : Bytes) (hH : WrittenHeader v H) (f g : Nat) (w : World) (hs : w.sched = [])
    (hne : (w.fd f).ino ≠ (w.fd g).ino) (hpg : (w.fd g).pos = 0)
    (hf : w.file (w.fd f).ino = H ++ body) (hg : w.file (w.fd g).ino = []) :
    ∃ w', dumpStripRestore f g w = (.ok (), w') ∧ w'.file (w.fd f).ino = H ++ body ∧ w'.file (w.fd g).ino = H ∧
      Touches [] [f, g] w w' := by
  obtain ⟨hd, aad, hi, hv, hser, hlen⟩ := hH.reads
  have hfg : f ≠ g := by rintro rfl; exact hne rfl
  subst hv
  unfold dumpStripRestore
  rw [Prog.bind_ok (reopen_run f w)]
  have hi1 : IsHeader ((w.setPos f 0).rest f) hd aad := by
    rw [World.rest_of_pos_zero (by simp), World.data]
    simp only [World.setPos_fd_same, World.setPos_file, hf]
    exact hi _
  rw [Prog.bind_ok (dump_nil (by simpa using hs) hi1 hser)]
  generalize hw1 : ((w.setPos f 0).adv f (headerSize hd.headerType.version)).put g H = w1
  have hs1 : w1.sched = [] := by rw [← hw1]; simpa using hs
  have ht1 : Touches [] [f, g] w w1 := by
    rw [← hw1]; exact (Touches.setPos (by simp)).trans ((Touches.adv (by simp)).trans (Touches.put (by simp)))
  have hgf1 : w1.file (w.fd g).ino = H := by
    rw [← hw1]
    have := World.put_file_same ((w.setPos f 0).adv f (headerSize hd.headerType.version)) g H
    simp only [World.adv_file, World.setPos_file, World.adv_fd_ne (w.setPos f 0) _ (Ne.symm hfg), World.setPos_fd_ne w _ (Ne.symm hfg), hg, hpg] at this
    rw [this, writeAt_zero]; simp
  have hff1 : w1.file (w.fd f).ino = H ++ body := by
    rw [← hw1, World.put_file_ne _ _ (by simpa using hne)]; exact hf
  rw [Prog.bind_ok (reopen_run f w1)]
  have hi2 : IsHeader ((w1.setPos f 0).rest f) hd aad := by
    rw [World.rest_of_pos_zero (by simp), World.data]
    simp only [World.setPos_fd_same, World.setPos_file, ht1.inos, hff1]
    exact hi _
  rw [Prog.bind_ok (strip_nil (by simpa using hs1) hi2)]
  simp only [World.setPos_setPos]
  generalize hw2 : (w1.setPos f 0).put f (zeros (headerSize hd.headerType.version)) = w2
  have hs2 : w2.sched = [] := by rw [← hw2]; simpa using hs1
  have ht2 : Touches [] [f, g] w w2 := by
    rw [← hw2]; exact ht1.trans ((Touches.setPos (by simp)).trans (Touches.put (by simp)))
  have hff2 : w2.file (w.fd f).ino = zeros (headerSize hd.headerType.version) ++ body := by
    rw [← hw2]
    have := World.put_file_same (w1.setPos f 0) f (zeros (headerSize hd.headerType.version))
    simp only [World.setPos_fd_same, World.setPos_file, ht1.inos, hff1] at this
    rw [this, writeAt_zero, zeros_length, ← hlen, List.drop_left]
  have hgf2 : w2.file (w.fd g).ino = H := by
    rw [← hw2, World.put_file_ne _ _ (by simp only [World.setPos_ino, ht1.inos]; exact Ne.symm hne)]
    exact hgf1
  rw [Prog.bind_ok (reopen_run f w2), Prog.bind_ok (reopen_run g (w2.setPos f 0))]
  have hposf : (((w2.setPos f 0).setPos g 0).fd f).pos = 0 := by rw [World.setPos_fd_ne _ _ hfg]; simp
  have hi3 : IsHeader (((w2.setPos f 0).setPos g 0).rest g) hd aad := by
    rw [World.rest_of_pos_zero (by simp), World.data]
    simp only [World.setPos_ino, World.setPos_file, ht2.inos, hgf2]
    have := hi []
    rwa [List.append_nil] at this
  have hz : ∀ b ∈ (((w2.setPos f 0).setPos g 0).rest f).take (headerSize hd.headerType.version), b = 0 := by
    rw [World.rest_of_pos_zero hposf, World.data]
    simp only [World.setPos_ino, World.setPos_file, ht2.inos, hff2]
    rw [List.take_left' (by simp)]
    intro b hb
    exact (List.mem_replicate.1 hb).2
  rw [restore_nil (Ne.symm hfg) (by simpa using hs2) hi3 hser hz]
  refine ⟨_, rfl, ?_, ?_, ?_⟩
  · have := World.put_file_same ((((w2.setPos f 0).setPos g 0).adv g (headerSize hd.headerType.version)).setPos f 0) f H
    simp only [World.setPos_fd_same, World.setPos_file, World.adv_file, World.adv_ino, World.setPos_ino, ht2.inos, hff2] at this
    rw [this, writeAt_zero, hlen, List.drop_left' (by simp)]
  · rw [World.put_file_ne _ _ (by simp only [World.setPos_ino, World.adv_ino, ht2.inos]; exact Ne.symm hne)]
    exact hgf2
  · exact ht2.trans (.trans (.setPos (by simp)) (.trans (.setPos (by simp)) (.trans (.adv (by simp)) (.trans (.setPos (by simp)) (.put (by simp))))))

example : ∃ w', dumpStripRestore 0 1 exHW = (.ok (), w') ∧ w'.file 0 = exH ++ [1, 2, 3] := by
  obtain ⟨w', h1, h2, _⟩ := C32_dump_strip_restore .v5 exH [1, 2, 3] exH_written 0 1 exHW rfl (by decide) rfl rfl rfl
  exact ⟨w', h1, h2⟩

/-! ### C33 -/

/-- **C33.** As long as transfers are not short, `restore` only writes over zeros: if any of the first `headerSize` bytes of the target is not zero it
fails and changes no file.  If it succeeds, those bytes (as far as the target has that many) were all zero, the target now starts with a header that
reads as the one in the header file, and nothing else is different. -/
theorem C33_restore_only_over_zeros_partial (hd : Header) (aad : Bytes) (r wr : Nat) (hne : r ≠ wr) (w : World) (hp : (w.fd wr).pos = 0)
    (hi : IsHeader ((w.file (w.fd r).ino).drop (w.fd r).pos) hd aad) (hns : ∀ k, Io.short k ∉ w.sched) :
    ((∃ b ∈ (w.file (w.fd wr).ino).take (headerSize hd.headerType.version), b ≠ 0) →
      ∃ e w', restore r wr w = (.err e, w') ∧ SameFiles w w' ∧ (w.sched = [] → e = .unsupportedRestore)) ∧
    (∀ w', restore r wr w = (.ok (), w') →
      (∀ b ∈ (w.file (w.fd wr).ino).take (headerSize hd.headerType.version), b = 0) ∧
      ∃ H aad', WrittenHeader hd.headerType.version H ∧ IsHeader H hd aad' ∧
        w'.file (w.fd wr).ino = H ++ (w.file (w.fd wr).ino).drop (headerSize hd.headerType.version) ∧ Touches [r] [wr] w w') ∧
    (∀ e w', restore r wr w = (.err e, w') → SameFiles w w') := by
  have hrw : w.rest wr = w.file (w.fd wr).ino := World.rest_of_pos_zero hp
  have hsame : ∀ {w' : World}, Touches [r, wr] [] w w' → SameFiles w w' := fun ht => ⟨funext fun i => ht.files i (by simp), ht.dir⟩
  refine ⟨?_, ?_, ?_⟩
  · rintro ⟨b, hb, hb0⟩
    rcases restore_cases hne w with ⟨hd2, aad2, H, k, n, w2, he, hi2, hs2, hz, _, _, hc, hcn⟩ | ⟨hd2, aad2, n, w2, he, _, _, _, ht⟩ | ⟨e, w2, he, hee, ht⟩
    · exfalso
      obtain ⟨rfl, -⟩ := isHeader_unique hi hi2
      obtain ⟨rfl, _⟩ := hcn hns
      rw [hrw] at hz
      exact hb0 (hz b hb)
    · exact ⟨_, w2, he, hsame ht, fun _ => rfl⟩
    · refine ⟨e, w2, he, hsame ht, ?_⟩
      intro hsn
      exfalso
      have hde := deserialize_isHeader hsn hi
      unfold restore at he
      rw [Prog.bind_ok (Prog.mapErr_ok hde)] at he
      simp only at he
      rw [show hd.getSize = headerSize hd.headerType.version from size_eq _] at he
      have hrest : (w.adv r (headerSize hd.headerType.version)).rest wr = w.rest wr := by
        simp [World.rest, World.data, World.adv_fd_ne _ _ (Ne.symm hne)]
      rw [Prog.bind_ok (Prog.mapErr_ok (read_nil (by simpa using hsn) wr _)), hrest] at he
      have hz' : ((w.rest wr).take (headerSize hd.headerType.version) ++ zeros (headerSize hd.headerType.version - ((w.rest wr).take (headerSize hd.headerType.version)).length)).all (· == 0) = false := by
        rw [Bool.eq_false_iff]; intro h
        have := (allZero_iff _ _).1 h
        rw [hrw] at this
        exact hb0 (this b hb)
      simp only [hz', Bool.not_false, if_true, Prog.throw_run, Prod.mk.injEq, Res.err.injEq] at he
      exact hee he.1.symm
  · intro w' hok
    rcases restore_cases hne w with ⟨hd2, aad2, H, k, n, w2, he, hi2, hs2, hz, _, _, hc, hcn⟩ | ⟨hd2, aad2, n, w2, he, _⟩ | ⟨e, w2, he, _⟩
    · rw [hok] at he
      obtain ⟨-, rfl⟩ := Prod.mk.inj he
      obtain ⟨rfl, -⟩ := isHeader_unique hi hi2
      obtain ⟨rfl, hc⟩ := hcn hns
      rw [hrw] at hz
      refine ⟨hz, ?_⟩
      obtain ⟨H', h1, h2, aad', h3⟩ := hi.rewritten (by intro hv; simp [Header.serialize, hv] at hs2) (by intro hv; simp [Header.serialize, hv] at hs2)
      rw [h2] at hs2
      obtain rfl := Res.ok.inj hs2
      obtain ⟨_, _, _, _, _, hl⟩ := h1.reads
      refine ⟨H', aad', h1, h3, ?_, ?_⟩
      · rw [World.file_of_core hc]
        have := World.put_file_same ((w.adv r (headerSize hd.headerType.version)).setPos wr 0) wr H'
        simp only [World.setPos_fd_same, World.setPos_file, World.adv_file, World.adv_ino] at this
        rw [this, writeAt_zero, hl]
      · exact ((Touches.adv (by simp)).trans (.trans (.setPos (by simp)) (.put (by simp)))).core_right hc
    · rw [hok] at he; simp at he
    · rw [hok] at he; simp at he
  · intro e w' herr
    rcases restore_cases hne w with ⟨hd2, aad2, H, k, n, w2, he, _⟩ | ⟨hd2, aad2, n, w2, he, _, _, _, ht⟩ | ⟨e, w2, he, _, ht⟩
    · rw [herr] at he; simp at he
    · rw [herr] at he; obtain ⟨-, rfl⟩ := Prod.mk.inj he; exact hsame ht
    · rw [herr] at he; obtain ⟨-, rfl⟩ := Prod.mk.inj he; exact hsame ht

example : ∃ hd aad, IsHeader ((exHW.file (exHW.fd 0).ino).drop (exHW.fd 0).pos) hd aad ∧
    (∃ b ∈ (exHW.file (exHW.fd 0).ino).take (headerSize hd.headerType.version), b ≠ 0) := by
  obtain ⟨hd, aad, hi, hv, _⟩ := exH_written.reads
  refine ⟨hd, aad, hi _, ?_⟩
  rw [hv]
  exact ⟨0xDE, by decide +kernel, by decide⟩

/-- **C33 fails with short reads.**  The check is a single `read`: if it returns only the first `n` bytes of the target and these are zero, `restore`
succeeds and overwrites whatever follows — here for every header, every target and every such `n`. -/
theorem C33_short_read_overwrites (v : HeaderVersion) (H data : Bytes) (hH : WrittenHeader v H) (n : Nat) (hn : 0 < n) (hn' : n ≤ headerSize v)
    (hz : ∀ b ∈ data.take n, b = 0) :
    ∃ w w', w.sched = [.full, .full, .full, .short n] ∧ (w.fd 0).pos = 0 ∧ (w.fd 1).pos = 0 ∧ w.file 0 = H ∧ w.file 1 = data ∧
      restore 0 1 w = (.ok (), w') ∧ w'.file 1 = H ++ data.drop (headerSize v) := by
  obtain ⟨hd, aad, hi, rfl, hser, hlen⟩ := hH.reads
  let w : World := { Example.world (fun i => if i = 0 then H else data) with sched := [.full, .full, .full, .short n] }
  have hw0 : w.rest 0 = H := rfl
  have hi0 : IsHeader (w.rest 0) hd aad := by rw [hw0]; have := hi []; rwa [List.append_nil] at this
  -- the three calls made by `deserialize` are complete
  have hde : ∃ v, deserialize 0 w = (.ok (hd, aad), v) ∧ v.core = (w.adv 0 (headerSize hd.headerType.version)).core ∧ v.sched = [.short n] := by
    have hv := isHeader_version hi0
    have hl := hi0.size
    have h2 : 2 ≤ H.length := by rw [hlen]; cases hd.headerType.version <;> decide
    have hne2 : H.take 2 ≠ [] := by intro h; have := congrArg List.length h; rw [List.length_take, List.length_nil] at this; omega
    have e1 : readExact 0 2 w = (.ok (H.take 2), { w.adv 0 2 with sched := [.full, .full, .short n] }) := by
      have : readUpTo 0 2 w = (.ok (H.take 2), { w.adv 0 2 with sched := [.full, .full, .short n] }) := by
        have hsc : w.sched = [.full, .full, .full, .short n] := rfl
        have hlt : (H.take 2).length = 2 := by rw [List.length_take]; omega
        simp only [readUpTo, hsc, readLoop, hw0, if_neg hne2, hlt]
        simp
      unfold readExact
      rw [Prog.bind_ok this, if_pos (by rw [List.length_take]; omega)]
      rfl
    have e2 : seekCur 0 (-2) ({ w.adv 0 2 with sched := [.full, .full, .short n] } : World) = (.ok (), { w with sched := [.full, .short n] }) := by
      unfold seekCur World.pop
      simp only
      rw [if_neg (by simp only [World.adv_fd_same]; omega)]
      congr 1
      have : (w.fd 0).pos = 0 := rfl
      have hset : ({ w.adv 0 2 with sched := [.full, .short n] } : World).setPos 0 0 = { (w.setPos 0 0) with sched := [.full, .short n] } := by
        simp only [World.adv]
        have := World.setPos_setPos w 0 ((w.fd 0).pos + 2) 0
        rw [← this]; rfl
      have hpos : ((({ w.adv 0 2 with sched := [.full, .short n] } : World).fd 0).pos : Int) + -2 = 0 := by simp [World.adv, this]
      rw [hpos]
      refine hset.trans ?_
      have := World.setPos_self w 0
      rw [show (w.fd 0).pos = 0 from rfl] at this
      rw [this]
    have e3 : readExact 0 (headerSize hd.headerType.version) { w with sched := [.full, .short n] } =
        (.ok (H.take (headerSize hd.headerType.version)), { w.adv 0 (headerSize hd.headerType.version) with sched := [.short n] }) := by
      have hT : H.take (headerSize hd.headerType.version) = H := by rw [← hlen]; exact List.take_length
      have hHne : H ≠ [] := by intro h; rw [h] at h2; simp at h2
      have : readUpTo 0 (headerSize hd.headerType.version) { w with sched := [.full, .short n] } =
          (.ok H, { w.adv 0 (headerSize hd.headerType.version) with sched := [.short n] }) := by
        simp only [readUpTo, readLoop]
        rw [if_neg (by cases hd.headerType.version <;> decide)]
        rw [show ({ w with sched := [.full, .short n] } : World).rest 0 = H from rfl, hT, if_neg hHne, hlen]
        simp [World.adv, World.setPos]
      unfold readExact
      rw [Prog.bind_ok this, if_pos (by rw [hlen]), hT]
      rfl
    refine ⟨{ w.adv 0 (headerSize hd.headerType.version) with sched := [.short n] }, ?_, rfl, rfl⟩
    unfold deserialize
    rw [Prog.bind_ok (Prog.mapErr_ok e1), Prog.bind_ok (Prog.mapErr_ok e2)]
    rw [hw0] at hv
    rw [hv]
    simp only
    rw [size_eq, Prog.bind_ok (Prog.mapErr_ok e3)]
    have := (parseHeader_iff H _ hd aad hv (by rw [size_eq]; omega)).2 ⟨rfl, by rw [← hw0]; exact hi0⟩
    rw [size_eq] at this
    rw [this]; rfl
  obtain ⟨u, hde, hcu, hsu⟩ := hde
  obtain ⟨w', hok, hc⟩ := restore_short (wr := 1) (by decide) hn hn' hde hcu hsu hser hz
  refine ⟨w, w', rfl, rfl, rfl, rfl, rfl, hok, ?_⟩
  rw [World.file_of_core hc]
  have := World.put_file_same ((w.adv 0 (headerSize hd.headerType.version)).setPos 1 0) 1 H
  simp only [World.setPos_fd_same, World.setPos_file, World.adv_file, World.adv_ino] at this
  rw [show (w.fd 1).ino = 1 from rfl] at this
  rw [this, writeAt_zero, hlen]
  rfl

example : ∃ w w', w.file 1 = [0, 7, 7] ∧ restore 0 1 w = (.ok (), w') ∧ w'.file 1 = exH := by
  obtain ⟨w, w', _, _, _, _, h1, h2, h3⟩ := C33_short_read_overwrites .v5 exH [0, 7, 7] exH_written 1 (by decide) (by decide) (by simp)
  exact ⟨w, w', h1, h2, by simpa [headerSize] using h3⟩

/-! ### C34 -/

/-- **C34.** Writing a header puts all its bytes in place or fails with nothing written, as long as transfers are not short.  In general a prefix of
the header may be written. -/
theorem C34_header_write_partial (hd : Header) (H : Bytes) (hH : hd.serialize = .ok H) (h : Nat) (w : World) :
    (∃ k w', hd.write h w = (.ok (), w') ∧ Wrote h w w' (H.take k) ∧ ((∀ k, Io.short k ∉ w.sched) → Wrote h w w' H) ∧ Touches [] [h] w w') ∨
    (∃ e w', hd.write h w = (.err e, w') ∧ SameFiles w w') := by
  have key : ∀ (w' : World) (bs : Bytes), w'.core = (w.put h bs).core → Wrote h w w' bs := by
    intro w' bs hc
    refine ⟨?_, ?_⟩
    · rw [World.file_of_core hc]; simp [World.put]
    · rw [World.fd_of_core hc]; simp
  rcases headerWrite_cases hH h w with ⟨k, w', hw, hc, hns⟩ | ⟨e, w', hw, hc⟩
  · exact .inl ⟨k, w', hw, key _ _ hc, fun hs => key _ _ (hns hs), (Touches.put (by simp)).core_right hc⟩
  · exact .inr ⟨e, w', hw, World.file_of_core hc, World.dir_of_core hc⟩

example : ∃ hd : Header, hd.serialize = .ok exH := by
  obtain ⟨hd, _, _, _, h, _⟩ := exH_written.reads
  exact ⟨hd, h⟩

/-- **C34 fails with short writes.**  For every header and every `k` there is an execution in which only `k` bytes of the header are written and
success is reported. -/
theorem C34_short_write_succeeds (v : HeaderVersion) (hd : Header) (H : Bytes) (hW : WrittenHeader v H) (hH : hd.serialize = .ok H) (k : Nat)
    (hk : k < headerSize v) :
    ∃ w w', w.sched = [.short k] ∧ w.file 0 = [] ∧ hd.write 0 w = (.ok (), w') ∧ w'.file 0 = H.take k ∧ w'.file 0 ≠ H := by
  obtain ⟨_, _, _, _, _, hlen⟩ := hW.reads
  refine ⟨{ Example.world1 [] with sched := [.short k] }, (Example.world1 []).put 0 (H.take k), rfl, rfl, ?_, ?_, ?_⟩
  · simp only [Header.write]
    rw [Prog.bind_ok (a := H) (by rw [hH]; rfl)]
    rfl
  · have := World.put_file_same (Example.world1 []) 0 (H.take k)
    rw [show ((Example.world1 []).fd 0) = ⟨0, 0⟩ from rfl] at this
    rw [this, writeAt_zero]
    simp [Example.world1, Example.world]
  · have := World.put_file_same (Example.world1 []) 0 (H.take k)
    rw [show ((Example.world1 []).fd 0) = ⟨0, 0⟩ from rfl] at this
    rw [this, writeAt_zero]
    intro h
    have := congrArg List.length h
    simp [Example.world1, Example.world] at this
    omega

example : (3 : Nat) < headerSize .v5 := by decide

end Volaris.Props
