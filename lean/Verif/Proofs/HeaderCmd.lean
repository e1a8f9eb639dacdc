import Verif.Proofs.KeyCmd
import Verif.Proofs.DecryptCmd
import Verif.Proofs.HeaderOps
/-!
# The header commands
-/
namespace Volaris.HeaderOps
open Volaris.Spec

theorem headerWrite_within (hd : Header) {R W : List Nat} {h : Nat} (hh : h ∈ W) : Within R W (hd.write h) :=
  .bind (.lift _) fun _ => .bind (.mapErr _ (.write _ hh)) fun _ => .pure _

theorem headerWrite_shrinks (hd : Header) (h : Nat) : Shrinks (hd.write h) :=
  .bind (.lift _) fun _ => .bind (.mapErr _ (.write _ _)) fun _ => .pure _

theorem dump_within (r wr : Nat) : Within [r] [wr] (dump r wr) := by
  unfold dump
  exact .bind (.mapErr _ (.deserialize (by simp))) fun _ => .mapErr _ (headerWrite_within _ (by simp))

theorem dump_shrinks (r wr : Nat) : Shrinks (dump r wr) := by
  unfold dump
  exact .bind (.mapErr _ (.deserialize _)) fun _ => .mapErr _ (headerWrite_shrinks _ _)

theorem strip_within (h : Nat) : Within [] [h] (strip h) := by
  unfold strip
  exact .bind (.mapErr _ (.deserialize (by simp))) fun _ => .bind (.mapErr _ (.rewind (by simp))) fun _ => .mapErr _ (.writeAll _ (by simp))

theorem strip_shrinks (h : Nat) : Shrinks (strip h) := by
  unfold strip
  exact .bind (.mapErr _ (.deserialize _)) fun _ => .bind (.mapErr _ (.rewind _)) fun _ => .mapErr _ (.writeAll _ _)

theorem restore_within (r wr : Nat) : Within [r] [wr] (restore r wr) := by
  unfold restore
  refine .bind (.mapErr _ (.deserialize (by simp))) fun _ => .bind (.mapErr _ (.read _ (by simp))) fun _ => .ite (.throw _) ?_
  exact .bind (.mapErr _ (.rewind (by simp))) fun _ => .mapErr _ (headerWrite_within _ (by simp))

theorem restore_shrinks (r wr : Nat) : Shrinks (restore r wr) := by
  unfold restore
  refine .bind (.mapErr _ (.deserialize _)) fun _ => .bind (.mapErr _ (.read _ _)) fun _ => .ite (.throw _) ?_
  exact .bind (.mapErr _ (.rewind _)) fun _ => .mapErr _ (headerWrite_shrinks _ _)

end Volaris.HeaderOps

namespace Volaris.Cli
open Volaris.Spec
variable {σ : Type}

/-! ### Without faults -/

theorem consent_nil {cwd : Path} {name : List Char} {force : ForceMode} {w : World} (h : ¬ Occupied w (toPath cwd name) ∨ force = .forced) : consent cwd name force w = (.ok (), w) := by
  unfold consent
  by_cases ho : Occupied w (toPath cwd name)
  · rcases h with h | rfl
    · exact absurd ho h
    · rw [Prog.bind_ok (show overwriteCheck cwd name .forced w = (.ok true, w) by rw [overwriteCheck_occupied .forced ho]; rfl)]; rfl
  · rw [Prog.bind_ok (overwriteCheck_free force ho)]; rfl

theorem openOutput_nil {p : PathBuf} {w : World} (hs : w.sched = []) (hc : CanHold w p) :
    ∃ q j w', openOutput p w = (.ok (.file p w.nextFd), w') ∧ Opened p q j w.nextFd w w' := by
  rcases openOutput_cases p w with h | ⟨e, s, hsub, he⟩
  · exact h
  · exfalso
    obtain ⟨q, hr, hq⟩ := hc
    rcases openNew_cases p w with ⟨q', s', _, _, _, _, he'⟩ | ⟨e', s', hs', he', hw⟩
    · have e1 : Storage.createFile p w = (.ok (.file p w.nextFd), (({ w with sched := s' } : World).created q').opened w.nextIno) := by
        unfold Storage.createFile
        rw [Prog.bind_ok (Prog.mapErr_ok he')]; rfl
      have e3 : openOutput p w = (.ok (.file p w.nextFd), (({ w with sched := s' } : World).created q').opened w.nextIno) := by
        unfold openOutput Unpack.orElse
        rw [Prog.mapErr_ok (x := fun w => _) (w := w)]
        simp only [e1]
      rw [e3] at he
      cases he
    · have e1 : Storage.createFile p w = (.err .createFile, { w with sched := s' }) := by
        unfold Storage.createFile
        rw [Prog.bind_err (Prog.mapErr_err he')]
      rw [hs, List.suffix_nil] at hs'
      subst hs'
      rcases hq with ⟨i, hi⟩ | ⟨h1, h2⟩
      · rcases openTrunc_cases (p := p) (w := { w with sched := [] }) (q := q) (i := i) (by rw [World.resolve_sched]; exact hr) hi with ⟨s2, _, he2⟩ | ⟨_, _, _, hn, _⟩
        · have e2 : Storage.writeFile p { w with sched := [] } = (.ok (.file p w.nextFd), (({ w with sched := s2 } : World).opened i).truncated i) := by
            unfold Storage.writeFile
            rw [Prog.bind_ok (Prog.mapErr_ok he2)]; rfl
          have e3 : openOutput p w = (.ok (.file p w.nextFd), (({ w with sched := s2 } : World).opened i).truncated i) := by
            unfold openOutput Unpack.orElse
            rw [Prog.mapErr_ok (x := fun w => _) (w := w)]
            simp only [e1, e2]
          rw [e3] at he
          cases he
        · exact hn rfl
      · rcases hw with hw | hw
        · exact hw hs
        · exact hw q hr h1 h2

theorem readInput_nil {p : PathBuf} {q : Path} {i : Nat} {w : World} (hs : w.sched = []) (hl : LeadsToFile w p q i) :
    readInput p w = (.ok (.file p w.nextFd), w.opened i) := by
  rcases readInput_cases p w with ⟨q', i', s, hs', hl', he⟩ | ⟨q', hd, he⟩ | ⟨e, s, _, _, h | h⟩
  · have e1 := hl.resolve.symm.trans hl'.resolve
    cases e1
    have e2 := hl.look.symm.trans hl'.look
    cases e2
    rw [hs, List.suffix_nil] at hs'
    rw [he, hs', ← hs]
  · have e1 := hl.resolve.symm.trans hd.resolve
    cases e1
    have e2 := hl.look.symm.trans hd.look
    cases e2
  · exact absurd hs h
  · exact absurd ⟨q, i, hl⟩ h

theorem openFile_nil {p : PathBuf} {q : Path} {i : Nat} {w : World} (hs : w.sched = []) (hl : LeadsToFile w p q i) :
    Volaris.openFile p w = (.ok w.nextFd, w.opened i) := by
  rcases openFile_any p w with ⟨q', i', s, hs', hl', he⟩ | ⟨e, s, _, _, h | h⟩
  · have e1 := hl.resolve.symm.trans hl'.resolve
    cases e1
    have e2 := hl.look.symm.trans hl'.look
    cases e2
    rw [hs, List.suffix_nil] at hs'
    rw [he, hs', ← hs]
  · exact absurd hs h
  · exact absurd ⟨q, i, hl⟩ h

theorem flushFile_nil {w : World} (hs : w.sched = []) (p : PathBuf) (h : Nat) : (Storage.flushFile (.file p h)).mapErr Error.storage w = (.ok (), w) := by
  unfold Storage.flushFile
  refine Prog.mapErr_ok ?_
  rw [Prog.bind_ok (show Prog.lift (Storage.Entry.stream (.file p h)) w = (.ok h, w) from rfl)]
  exact Prog.mapErr_ok (flush_nil hs h)

/-! ### `header dump` -/

/-- A file that has been opened for reading is there, whatever is opened for writing afterwards. -/
def Dumped (s : Sys σ) (input output : List Char) (w v : World) : Prop :=
  ∃ q i qo j hd aad H, LeadsToFile w (toPath s.cwd input) q i ∧ LeadsToFile v (toPath s.cwd output) qo j ∧ j ≠ i ∧
    IsHeader (w.file i) hd aad ∧ hd.serialize = .ok H ∧ v.file j = H ∧ v.file i = w.file i

theorem headerDump_wp (s : Sys σ) (input output : List Char) (force : ForceMode) (w : World) :
    wp (headerDump s input output force)
      (fun r w' => Trail (OutputPlace s.cwd force output w) w w' ∧
        (r = .ok () → (∀ k, Io.short k ∉ w.sched) → Allocated w → Apart w (toPath s.cwd input) (toPath s.cwd output) → Dumped s input output w w')) w := by
  unfold headerDump
  have hl1 := (readInput_looks w.nextFd (toPath s.cwd input) w (Nat.le_refl _)).1
  have hr1 := readInput_cases (toPath s.cwd input) w
  refine wp_bind (fun e w1 h1 => ?_) (fun e w1 h1 => ?_) (fun e w1 h1 => ?_)
  all_goals
    rw [h1] at hl1 hr1
    replace hl1 : Looked w.nextFd w w1 := hl1
  · have ht1 : Trail (OutputPlace s.cwd force output w) w w1 := Trail.looked hl1 (Nat.le_refl _)
    have hc := consent_wp s.cwd output force w1
    unfold wp at hc
    refine wp_bind (fun a w2 h2 => ?_) (fun e w2 h2 => ?_) (fun e w2 h2 => ?_)
    all_goals
      rw [h2] at hc
      obtain ⟨hl2, hc2⟩ := hc
      replace hl2 : Looked w1.nextFd w1 w2 := hl2
    all_goals have ht2 := ht1.trans (Trail.looked hl2 (Nat.le_refl _))
    · have hm : MayWrite force w (toPath s.cwd output) := mayWrite_of_consent ht1 (hc2 rfl)
      rcases openOutput_cases (toPath s.cwd output) w2 with ⟨qo, j, w3, he3, ho⟩ | ⟨x, sc, hsc, he3⟩
      · have hT : OutputPlace s.cwd force output w qo := ⟨hm, (ht2.resolves _ _).1 ho.resolve⟩
        have ht3 := ht2.trans (Trail.opened ho hT)
        have hout3 : LeadsToFile w3 (toPath s.cwd output) qo j := ⟨(ho.resolves _ _).2 ho.resolve, ho.now⟩
        have hlook : ∀ x, w2.look x = w.look x := fun x => by rw [hl2.look, hl1.look]
        have htar : w.nextIno ≤ j ∨ OutputPlace s.cwd force output w qo ∧ w.look qo = some (.file j) := by
          rcases ho.was with ⟨_, h2, _⟩ | ⟨h1, _⟩
          · left; have g2 := hl2.nextIno; have g1 := hl1.nextIno; omega
          · exact .inr ⟨hT, by rw [← hlook]; exact h1⟩
        refine wp_bind (fun a w' h => ?_) (fun x w' h => by rw [he3] at h; cases h) (fun x w' h => by rw [he3] at h; cases h)
        rw [he3] at h; cases h
        rcases hr1 with ⟨q, i, sc, _, hq, he⟩ | ⟨q, _, he⟩ | ⟨_, _, _, he, _⟩
        · cases he
          have hfd3 : w3.fd w.nextFd = { ino := i, pos := 0 } := by
            have h2 := hl2.nextFd
            have hx : w.nextFd < (({ w with sched := sc } : World).opened i).nextFd := Nat.lt_succ_self _
            rw [ho.fds _ (by omega), hl2.fds _ hx]
            exact opened_fd { w with sched := sc } i
          have hne : w.nextFd ≠ w2.nextFd := by
            have h2 := hl2.nextFd
            have hx : w.nextFd < (({ w with sched := sc } : World).opened i).nextFd := Nat.lt_succ_self _
            omega
          unfold wp
          rw [Prog.bind_ok (streamOf_file _ _ w3), Prog.bind_ok (streamOf_file _ _ w3)]
          have hwi := HeaderOps.dump_within w.nextFd w2.nextFd w3
          have hsh := HeaderOps.dump_shrinks w.nextFd w2.nextFd w3
          have htr : ∀ w', Touches [w.nextFd] [w2.nextFd] w3 w' → w'.sched <:+ w3.sched → Trail (OutputPlace s.cwd force output w) w w' := by
            intro w' htt hs
            refine ht3.touch ?_ htt hs
            intro h hh
            rw [List.mem_singleton] at hh
            subst hh
            rw [ho.handle]
            rcases htar with h | h
            · exact .inl h
            · exact .inr ⟨qo, h.1, h.2⟩
          rcases HeaderOps.dump_cases w.nextFd w2.nextFd w3 with ⟨hd, aad, H, k, w4, he4, hi, hH, _, hcn⟩ | ⟨e, w4, he4, _⟩
          · rw [he4] at hwi hsh
            rw [Prog.bind_ok (Prog.mapErr_ok he4)]
            obtain ⟨r, w5, he5, hc5, hs5⟩ := flushFile_core (toPath s.cwd output) w2.nextFd w4
            rw [he5]
            refine ⟨htr w5 (hwi.core_right hc5) (hs5.trans hsh), fun _ hns hal hap => ?_⟩
            obtain ⟨_, hji⟩ := apart_ne hal ht3 hap hq hout3 htar
            have hwi3 : w3.file i = w.file i := output_kept hal ht3 hap hq
            have hcore := hcn fun k hk => hns k (ht3.sched.subset hk)
            have hf5 : w5.file = w4.file := World.file_of_core hc5
            have hd5 : w5.dir = w3.dir := (World.dir_of_core hc5).trans hwi.dir
            refine ⟨q, i, qo, j, hd, aad, H, hq, ?_, hji, ?_, hH, ?_, ?_⟩
            · exact ⟨by rw [World.resolve_congr hd5]; exact hout3.resolve, by rw [World.look_congr hd5]; exact hout3.look⟩
            · have := hi
              simp only [World.rest, World.data, hfd3, List.drop_zero, hwi3] at this
              exact this
            · rw [hf5, World.file_of_core hcore]
              have := World.put_file_same (w3.adv w.nextFd (headerSize hd.headerType.version)) w2.nextFd H
              rw [World.adv_fd_ne _ _ (Ne.symm hne), World.adv_file, ho.handle] at this
              simp only [ho.empty] at this
              rw [this, writeAt_zero]; simp
            · rw [hf5, hwi.files i (by simp [ho.handle, hji]), hwi3]
          · rw [he4] at hwi hsh
            rw [Prog.bind_err (Prog.mapErr_err he4)]
            exact ⟨htr w4 hwi hsh, fun h => nomatch h⟩
        · cases he
          unfold wp
          rw [Prog.bind_err (streamOf_dir _ w3)]
          exact ⟨ht3, fun h => nomatch h⟩
        · cases he
      · refine wp_bind (fun a w' h => by rw [he3] at h; cases h) (fun x w' h => ?_) (fun x w' h => by rw [he3] at h; cases h)
        rw [he3] at h; cases h
        exact ⟨ht2.trans (Trail.looked (Looked.of_sched w2.nextFd w2 hsc) (Nat.le_refl _)), fun h => nomatch h⟩
    · exact ⟨ht2, fun h => nomatch h⟩
    · exact ⟨ht2, fun h => nomatch h⟩
  · exact ⟨Trail.looked hl1 (Nat.le_refl _), fun h => nomatch h⟩
  · exact ⟨Trail.looked hl1 (Nat.le_refl _), fun h => nomatch h⟩

/-- Without faults, when the input has a header that can be written and the output can be written to, the header is dumped. -/
theorem headerDump_nil (s : Sys σ) {input output : List Char} {force : ForceMode} {w : World} {q : Path} {i : Nat} {hd : Header} {aad H : Bytes} (hs : w.sched = [])
    (hl : LeadsToFile w (toPath s.cwd input) q i) (hi : IsHeader (w.file i) hd aad) (hH : hd.serialize = .ok H) (hc : CanHold w (toPath s.cwd output))
    (hm : ¬ Occupied w (toPath s.cwd output) ∨ force = .forced) (hal : Allocated w) (hap : Apart w (toPath s.cwd input) (toPath s.cwd output)) :
    ∃ w', headerDump s input output force w = (.ok (), w') := by
  have e1 := readInput_nil hs hl
  have e2 : consent s.cwd output force (w.opened i) = (.ok (), w.opened i) := by
    refine consent_nil (hm.imp_left fun h ho => h ?_)
    obtain ⟨q', n, h1, h2⟩ := ho
    exact ⟨q', n, by rw [World.resolve_congr (w := w.opened i) (w' := w) rfl]; exact h1, h2⟩
  have hc' : CanHold (w.opened i) (toPath s.cwd output) := by
    obtain ⟨q', h1, h2⟩ := hc
    exact ⟨q', by rw [World.resolve_congr (w' := w.opened i) (w := w) rfl]; exact h1, h2⟩
  obtain ⟨qo, j, w3, e3, ho⟩ := openOutput_nil (w := w.opened i) hs hc'
  have hs3 : w3.sched = [] := by
    have := ho.sched
    rw [show (w.opened i).sched = [] from hs, List.suffix_nil] at this
    exact this
  have hji : j ≠ i := by
    rcases ho.was with ⟨_, h2, _⟩ | ⟨h1, _⟩
    · have h3 := hal q i hl.look
      have h2 : j = w.nextIno := h2
      omega
    · rintro rfl
      have hr : w.resolve (toPath s.cwd output) = .ok qo := by
        rw [World.resolve_congr (w := w.opened j) (w' := w) rfl]; exact ho.resolve
      exact hap.2 q qo j hl ⟨hr, h1⟩
  have hfd3 : w3.fd w.nextFd = { ino := i, pos := 0 } := by
    have hne : w.nextFd ≠ (w.opened i).nextFd := Nat.ne_of_lt (Nat.lt_succ_self _)
    rw [ho.fds _ hne]; exact opened_fd w i
  have hi3 : IsHeader (w3.rest w.nextFd) hd aad := by
    simp only [World.rest, World.data, hfd3, List.drop_zero]
    rw [ho.files i (Ne.symm hji)]
    exact hi
  have e4 := HeaderOps.dump_nil (wr := (w.opened i).nextFd) hs3 hi3 hH
  refine ⟨(w3.adv w.nextFd (headerSize hd.headerType.version)).put (w.opened i).nextFd H, ?_⟩
  unfold headerDump
  rw [Prog.bind_ok e1, Prog.bind_ok e2, Prog.bind_ok e3, Prog.bind_ok (streamOf_file _ _ w3), Prog.bind_ok (streamOf_file _ _ w3), Prog.bind_ok (Prog.mapErr_ok e4)]
  exact flushFile_nil (by simpa using hs3) _ _

/-! ### `header strip` -/

theorem headerStrip_cases (s : Sys σ) (input : List Char) (w : World) :
    (∃ q i hd aad w', headerStrip s input w = (.ok (), w') ∧ LeadsToFile w (toPath s.cwd input) q i ∧ IsHeader (w.file i) hd aad ∧ OnlyEdits (toPath s.cwd input) w w' ∧
      w'.sched <:+ w.sched ∧ w'.nextIno = w.nextIno ∧
      w'.file i = List.replicate (headerSize hd.headerType.version) 0 ++ (w.file i).drop (headerSize hd.headerType.version)) ∨
    (∃ q i hd aad k w' e, headerStrip s input w = (.err e, w') ∧ LeadsToFile w (toPath s.cwd input) q i ∧ IsHeader (w.file i) hd aad ∧ OnlyEdits (toPath s.cwd input) w w' ∧
      k ≤ headerSize hd.headerType.version ∧ w.sched ≠ [] ∧ w'.file i = List.replicate k 0 ++ (w.file i).drop k) ∨
    (∃ e w', headerStrip s input w = (.err e, w') ∧ SameFiles w w' ∧
      (w.sched ≠ [] ∨ ∀ q i hd aad, LeadsToFile w (toPath s.cwd input) q i → ¬ IsHeader (w.file i) hd aad)) := by
  unfold headerStrip
  rcases openFile_any (toPath s.cwd input) w with ⟨q, i, sc, hsc, hl, he⟩ | ⟨e, sc, hsc, he, hor⟩
  · rw [Prog.bind_ok (Prog.mapErr_ok he)]
    have hfd : (({ w with sched := sc } : World).opened i).fd w.nextFd = { ino := i, pos := 0 } := opened_fd { w with sched := sc } i
    have hrest : (({ w with sched := sc } : World).opened i).rest w.nextFd = w.file i := opened_rest { w with sched := sc } i
    have hwi := HeaderOps.strip_within w.nextFd (({ w with sched := sc } : World).opened i)
    have hsh := HeaderOps.strip_shrinks w.nextFd (({ w with sched := sc } : World).opened i)
    have hed : ∀ w', Touches [] [w.nextFd] (({ w with sched := sc } : World).opened i) w' → OnlyEdits (toPath s.cwd input) w w' := by
      intro w' ht
      refine ⟨ht.dir, fun j hj => ?_⟩
      have hne : i ≠ j := by rintro rfl; exact hj q hl
      exact ht.files j (by simp [hfd, hne])
    have hput : ∀ n (w' : World), w'.core = (((({ w with sched := sc } : World).opened i).setPos w.nextFd 0).put w.nextFd (zeros n)).core →
        w'.file i = List.replicate n 0 ++ (w.file i).drop n := by
      intro n w' hc
      rw [World.file_of_core hc]
      have := World.put_file_same ((({ w with sched := sc } : World).opened i).setPos w.nextFd 0) w.nextFd (zeros n)
      simp only [World.setPos_fd_same, World.setPos_file, hfd] at this
      rw [this, writeAt_zero]
      simp only [zeros, List.length_replicate]
      rfl
    rcases HeaderOps.strip_cases w.nextFd (({ w with sched := sc } : World).opened i) with ⟨hd, aad, w', h1, hi, hc⟩ | ⟨hd, aad, k, w', h1, hi, hk, hc⟩ | ⟨e, w', h1, h2, ht⟩
    · rw [h1] at hwi hsh
      rw [hrest] at hi
      exact .inl ⟨q, i, hd, aad, w', Prog.mapErr_ok h1, hl, hi, hed w' hwi, hsh.trans hsc, hwi.nextIno, hput _ _ hc⟩
    · rw [h1] at hwi hsh
      refine .inr (.inl ⟨q, i, hd, aad, k, w', _, Prog.mapErr_err h1, hl, by rw [hrest] at hi; exact hi, hed w' hwi, hk, ?_, hput _ _ hc⟩)
      intro hs
      rw [hs, List.suffix_nil] at hsc
      rw [HeaderOps.strip_nil (w := ({ w with sched := sc } : World).opened i) hsc hi] at h1
      cases h1
    · refine .inr (.inr ⟨_, w', Prog.mapErr_err h1, ⟨funext fun j => ht.files j (by simp), ht.dir⟩, ?_⟩)
      by_cases hs : w.sched = []
      · right
        intro q' i' hd aad hl' hi'
        have e1 := hl.resolve.symm.trans hl'.resolve
        cases e1
        have e2 := hl.look.symm.trans hl'.look
        cases e2
        rw [hs, List.suffix_nil] at hsc
        rw [HeaderOps.strip_nil (w := ({ w with sched := sc } : World).opened i) hsc (by rw [hrest]; exact hi')] at h1
        cases h1
      · exact .inl hs
  · rw [Prog.bind_err (Prog.mapErr_err he)]
    refine .inr (.inr ⟨_, _, rfl, ⟨rfl, rfl⟩, hor.imp_right fun h q i hd aad hl _ => h ⟨q, i, hl⟩⟩)

/-! ### `header restore` -/

theorem headerRestore_cases (s : Sys σ) (input output : List Char) (w : World) :
    (∃ q i qo j hd aad H k n w', headerRestore s input output w = (.ok (), w') ∧ LeadsToFile w (toPath s.cwd input) q i ∧ LeadsToFile w (toPath s.cwd output) qo j ∧
      IsHeader (w.file i) hd aad ∧ hd.serialize = .ok H ∧ OnlyEdits (toPath s.cwd output) w w' ∧ w'.sched <:+ w.sched ∧ w'.nextIno = w.nextIno ∧
      w'.file j = H.take k ++ (w.file j).drop (H.take k).length ∧ 0 < n ∧ (∀ b ∈ (w.file j).take n, b = 0) ∧
      ((∀ k, Io.short k ∉ w.sched) → n = headerSize hd.headerType.version ∧ w'.file j = H ++ (w.file j).drop H.length)) ∨
    (∃ e w', headerRestore s input output w = (.err e, w') ∧ SameFiles w w' ∧ (w.sched = [] →
      ∀ q i qo j hd aad, LeadsToFile w (toPath s.cwd input) q i → LeadsToFile w (toPath s.cwd output) qo j → IsHeader (w.file i) hd aad →
        hd.headerType.version = .v1 ∨ hd.headerType.version = .v2 ∨ ∃ b ∈ (w.file j).take (headerSize hd.headerType.version), b ≠ 0)) := by
  unfold headerRestore
  have hun : ∀ {p q i q' i'}, LeadsToFile w p q i → LeadsToFile w p q' i' → i = i' := by
    intro p q i q' i' h h'
    have e1 := h.resolve.symm.trans h'.resolve
    cases e1
    have e2 := h.look.symm.trans h'.look
    cases e2; rfl
  rcases readInput_cases (toPath s.cwd input) w with ⟨q, i, sc, hsc, hl, he⟩ | ⟨q, hq, he⟩ | ⟨e, sc, hsc, he, hor⟩
  · rw [Prog.bind_ok he]
    generalize hv : ({ w with sched := sc } : World).opened i = v at *
    have hvd : v.dir = w.dir := by rw [← hv]; rfl
    have hvf : v.file = w.file := by rw [← hv]; rfl
    have hvs : v.sched = sc := by rw [← hv]; rfl
    have hvn : v.nextFd = w.nextFd + 1 := by rw [← hv]; rfl
    have hvi : v.nextIno = w.nextIno := by rw [← hv]; rfl
    have hvfd : v.fd w.nextFd = { ino := i, pos := 0 } := by rw [← hv]; exact opened_fd { w with sched := sc } i
    have hle : ∀ {p q i}, LeadsToFile v p q i ↔ LeadsToFile w p q i := by
      intro p q i
      refine ⟨fun h => ⟨by rw [World.resolve_congr hvd.symm]; exact h.resolve, by rw [World.look_congr hvd.symm]; exact h.look⟩, fun h => ⟨by rw [World.resolve_congr hvd]; exact h.resolve, by rw [World.look_congr hvd]; exact h.look⟩⟩
    rcases openFile_any (toPath s.cwd output) v with ⟨qo, j, sc', hsc', hlo, he'⟩ | ⟨e, sc', hsc', he', hor⟩
    · rw [Prog.bind_ok (Prog.mapErr_ok he'), Prog.bind_ok (streamOf_file _ _ _)]
      have hlo' := hle.1 hlo
      generalize hu : ({ v with sched := sc' } : World).opened j = u at *
      have hud : u.dir = w.dir := by rw [← hu]; exact hvd
      have huf : u.file = w.file := by rw [← hu]; exact hvf
      have hus : u.sched = sc' := by rw [← hu]; rfl
      have hui : u.nextIno = w.nextIno := by rw [← hu]; exact hvi
      have hsu : u.sched <:+ w.sched := by rw [hus]; exact (hvs ▸ hsc').trans hsc
      have hne : w.nextFd ≠ v.nextFd := by omega
      have hfr : u.fd w.nextFd = { ino := i, pos := 0 } := by
        rw [← hu]
        show (if w.nextFd = v.nextFd then _ else v.fd w.nextFd) = _
        rw [if_neg hne, hvfd]
      have hfw : u.fd v.nextFd = { ino := j, pos := 0 } := by rw [← hu]; exact opened_fd { v with sched := sc' } j
      have hrr : u.rest w.nextFd = w.file i := by simp [World.rest, World.data, hfr, huf]
      have hrw : u.rest v.nextFd = w.file j := by simp [World.rest, World.data, hfw, huf]
      have hwi := HeaderOps.restore_within w.nextFd v.nextFd u
      have hsh := HeaderOps.restore_shrinks w.nextFd v.nextFd u
      have hput : ∀ n H (w' : World), w'.core = (((u.adv w.nextFd n).setPos v.nextFd 0).put v.nextFd H).core → w'.file j = H ++ (w.file j).drop H.length := by
        intro n H w' hc
        rw [World.file_of_core hc]
        have := World.put_file_same ((u.adv w.nextFd n).setPos v.nextFd 0) v.nextFd H
        simp only [World.setPos_fd_same, World.setPos_file, World.adv_ino, World.adv_file, hfw, huf] at this
        rw [this, writeAt_zero]
      have hnil : w.sched = [] → ∀ hd aad, IsHeader (w.file i) hd aad → (∀ b ∈ (w.file j).take (headerSize hd.headerType.version), b = 0) →
          hd.headerType.version ≠ .v1 → hd.headerType.version ≠ .v2 → ∃ w', HeaderOps.restore w.nextFd v.nextFd u = (.ok (), w') := by
        intro hs hd aad hi hz h1 h2
        obtain ⟨H, _, hser, _⟩ := hi.rewritten h1 h2
        rw [hs, List.suffix_nil] at hsu
        exact ⟨_, HeaderOps.restore_nil hne hsu (by rw [hrr]; exact hi) hser (by rw [hrw]; exact hz)⟩
      have herr : ∀ e w', HeaderOps.restore w.nextFd v.nextFd u = (.err e, w') → (w.sched = [] →
          ∀ q i qo j hd aad, LeadsToFile w (toPath s.cwd input) q i → LeadsToFile w (toPath s.cwd output) qo j → IsHeader (w.file i) hd aad →
            hd.headerType.version = .v1 ∨ hd.headerType.version = .v2 ∨ ∃ b ∈ (w.file j).take (headerSize hd.headerType.version), b ≠ 0) := by
        intro e w' he hs q1 i1 q2 j1 hd aad h1 h2 hi
        obtain rfl := hun hl h1
        obtain rfl := hun hlo' h2
        by_cases c1 : hd.headerType.version = .v1
        · exact .inl c1
        by_cases c2 : hd.headerType.version = .v2
        · exact .inr (.inl c2)
        right; right
        apply Classical.byContradiction
        intro hn
        obtain ⟨w2, h⟩ := hnil hs hd aad hi (fun b hb => Classical.byContradiction fun h0 => hn ⟨b, hb, h0⟩) c1 c2
        rw [he] at h
        cases h
      rcases HeaderOps.restore_cases hne u with ⟨hd, aad, H, k, n, w', h1, hi, hH, hz, hn0, hn, hc, hcn⟩ | ⟨hd, aad, n, w', h1, _, _, _, ht⟩ | ⟨e, w', h1, _, ht⟩
      · rw [h1] at hwi hsh
        rw [hrr] at hi
        rw [hrw] at hz
        refine .inl ⟨q, i, qo, j, hd, aad, H, k, n, w', Prog.mapErr_ok h1, hl, hlo', hi, hH, ⟨hwi.dir.trans hud, fun x hx => ?_⟩, hsh.trans hsu, hwi.nextIno.trans hui, hput _ _ _ hc, hn0, hz, ?_⟩
        · have hnx : j ≠ x := by rintro rfl; exact hx qo hlo'
          rw [hwi.files x (by simp [hfw, hnx]), huf]
        · intro hns
          obtain ⟨e1, e2⟩ := hcn fun k hk => hns k (hsu.subset hk)
          exact ⟨e1, hput _ _ _ e2⟩
      · exact .inr ⟨_, w', Prog.mapErr_err h1, ⟨(funext fun x => ht.files x (by simp)).trans huf, ht.dir.trans hud⟩, herr _ _ h1⟩
      · exact .inr ⟨_, w', Prog.mapErr_err h1, ⟨(funext fun x => ht.files x (by simp)).trans huf, ht.dir.trans hud⟩, herr _ _ h1⟩
    · rw [Prog.bind_err (Prog.mapErr_err he')]
      refine .inr ⟨_, _, rfl, ⟨hvf, hvd⟩, fun hs q1 i1 q2 j1 hd aad h1 h2 hi => ?_⟩
      exfalso
      rcases hor with h | h
      · rw [hs, List.suffix_nil] at hsc
        exact h (hvs.trans hsc)
      · exact h ⟨q2, j1, hle.2 h2⟩
  · rw [Prog.bind_ok he]
    have hno : ∀ q1 i1, ¬ LeadsToFile w (toPath s.cwd input) q1 i1 := by
      intro q1 i1 h1
      have e1 := hq.resolve.symm.trans h1.resolve
      cases e1
      have e2 := hq.look.symm.trans h1.look
      cases e2
    rcases openFile_any (toPath s.cwd output) w with ⟨qo, j, sc', hsc', hlo, he'⟩ | ⟨e, sc', hsc', he', hor⟩
    · rw [Prog.bind_ok (Prog.mapErr_ok he'), Prog.bind_err (streamOf_dir _ _)]
      exact .inr ⟨_, _, rfl, ⟨rfl, rfl⟩, fun _ q1 i1 _ _ _ _ h1 => absurd h1 (hno q1 i1)⟩
    · rw [Prog.bind_err (Prog.mapErr_err he')]
      exact .inr ⟨_, _, rfl, ⟨rfl, rfl⟩, fun _ q1 i1 _ _ _ _ h1 => absurd h1 (hno q1 i1)⟩
  · rw [Prog.bind_err he]
    refine .inr ⟨_, _, rfl, ⟨rfl, rfl⟩, fun hs q1 i1 _ _ _ _ h1 => ?_⟩
    rcases hor with h | h
    · exact absurd hs h
    · exact absurd ⟨q1, i1, h1⟩ h

end Volaris.Cli
