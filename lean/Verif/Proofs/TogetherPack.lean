import Verif.Spec.TogetherPack
import Verif.Proofs.Together
import Verif.Proofs.ObservedPack
/-!
# Several commands pack, encrypt or decrypt one file, and erase it, at the same time
-/
namespace Volaris.Dist
open Volaris.Spec Volaris.Cli
open Volaris.Pack (handles mem_handles)
variable {ε ε' α β σ : Type}

/-! ## How far packing is -/

/-- There is no temporary file; or it is file `t` at the place `p` and holds `y`; or it is being erased, and what is in `I` was met then; or somebody has changed it. -/
inductive Packing where
  | going (s : Sealing)
  | temp (s : Sealing) (p : Path) (t : Nat) (y : Bytes)
  | cleaning (s : Sealing) (I : Nat → Prop)
  | lost

variable {N : Disk → Path → Prop} {P : Sealing → Disk → Disk → Sealing → Prop}

/-- What a step can do at each stage; `N` is where the temporary file is. -/
inductive Stores (N : Disk → Path → Prop) (P : Sealing → Disk → Disk → Sealing → Prop) : Packing → Disk → Disk → Packing → Prop
  | going {d d' : Disk} {s s' : Sealing} : P s d d' s' → Stores N P (.going s) d d' (.going s')
  | create {d d' : Disk} {s : Sealing} {p : Path} {t : Nat} : KeepsNames (d, d') → (∀ j, j < d.nextIno → d'.file j = d.file j) → N d p → lookDisk d' p = some (.file t) → d'.file t = [] → Stores N P (.going s) d d' (.temp s p t [])
  | fill {d d' : Disk} {s : Sealing} {p : Path} {t : Nat} {y y' : Bytes} : KeepsNames (d, d') → (∀ j, j ≠ t → d'.file j = d.file j) → d'.file t = y' → Stores N P (.temp s p t y) d d' (.temp s p t y')
  | sealing {d d' : Disk} {s s' : Sealing} {p : Path} {t : Nat} {y : Bytes} : P s d d' s' → Stores N P (.temp s p t y) d d' (.temp s' p t y)
  | first {d d' : Disk} {s : Sealing} {p : Path} {t : Nat} {y : Bytes} : Move N (· = t) d d' → Stores N P (.temp s p t y) d d' (.cleaning s fun j => j = t ∨ Seen N d d' j)
  | clean {d d' : Disk} {s : Sealing} {I : Nat → Prop} : Move N I d d' → Stores N P (.cleaning s I) d d' (.cleaning s fun j => I j ∨ Seen N d d' j)
  | idle {d d' : Disk} {s : Sealing} {I : Nat → Prop} : KeepsNames (d, d') → d'.file = d.file → Stores N P (.cleaning s I) d d' (.cleaning s I)
  | astray {d d' : Disk} {s : Sealing} {p : Path} {t : Nat} {y : Bytes} : d.file t ≠ y → Stores N P (.temp s p t y) d d' .lost
  | lost {d d' : Disk} : Stores N P .lost d d' .lost

theorem still_going {s : Sealing} (h : Still P s) : Still (Stores N P) (.going s) := fun _ _ h1 h2 => .going (h _ _ h1 h2)
theorem still_temp {s : Sealing} {p : Path} {t : Nat} {y : Bytes} (h : Still P s) : Still (Stores N P) (.temp s p t y) := fun _ _ h1 h2 => .sealing (h _ _ h1 h2)
theorem still_cleaning {s : Sealing} {I : Nat → Prop} : Still (Stores N P) (.cleaning s I) := fun _ _ h1 h2 => .idle (keeps_dir h2) h1
theorem still_lost : Still (Stores N P) .lost := fun _ _ _ _ => .lost

section
variable {D : Disk → Prop} {a : World}

theorem Obs.on {S : Type} {G : S → Disk → Disk → S → Prop} {Q : α → World → S → Prop} {D' : Disk → Prop} (hD : ∀ d, D' d → D d) : ∀ {t : Thr ε α} {a : World} {s : S}, Obs D G Q t a s → Obs D' G Q t a s := by
  intro t
  induction t with
  | done r => intro a s h; exact h
  | step eff k ih => intro a s h d hd; obtain ⟨s', h1, h2⟩ := h d (hD d hd); exact ⟨s', h1, ih _ h2⟩

theorem obs_lost {Q : α → World → Packing → Prop} (hQ : ∀ y w, Q y w .lost) : ∀ {t : Thr ε α} {a : World}, Obs D (Stores N P) Q t a .lost := by
  intro t
  induction t with
  | done r => intro a y _; exact hQ y a
  | step eff k ih => intro a d _; exact ⟨.lost, .lost, ih _⟩

theorem obs_going {Q : α → World → Sealing → Prop} : ∀ {t : Thr ε α} {a : World} {s : Sealing}, Obs D P Q t a s → Obs D (Stores N P) (fun y w S => ∃ s', S = .going s' ∧ Q y w s') t a (.going s) := by
  intro t
  induction t with
  | done r => intro a s h y hy; exact ⟨s, rfl, h y hy⟩
  | step eff k ih => intro a s h d hd; obtain ⟨s', h1, h2⟩ := h d hd; exact ⟨_, .going h1, ih _ h2⟩

/-- While the temporary file is there. -/
theorem obs_during {Q : α → World → Sealing → Prop} {p : Path} {f : Nat} {y : Bytes} : ∀ {t : Thr ε α} {a : World} {s : Sealing}, Obs (fun d => D d ∧ d.file f = y) P Q t a s →
    Obs D (Stores N P) (fun r w S => (∃ s', S = .temp s' p f y ∧ ∀ v, r = .ok v → Q v w s') ∨ S = .lost) (Steps.attempt (ε' := ε') t) a (.temp s p f y) := by
  intro t
  induction t with
  | done r =>
    intro a s h
    cases r with
    | ok v => exact .pure (.inl ⟨s, rfl, fun v' hv => h v' hv⟩)
    | err e => exact .pure (.inl ⟨s, rfl, fun v' hv => by cases hv⟩)
    | abort e => exact .abort
  | step eff k ih =>
    intro a s h d hd
    by_cases e : d.file f = y
    · obtain ⟨s', h1, h2⟩ := h d ⟨hd, e⟩
      exact ⟨.temp s' p f y, .sealing h1, ih _ h2⟩
    · exact ⟨.lost, .astray e, obs_lost fun _ _ => .inr rfl⟩

theorem obs_cleaning {Q : Res ε α → World → (Nat → Prop) → Prop} (hD : ∀ d, D d → GoodDisk d) {s : Sealing} : ∀ {t : Thr ε α} {a : World} {I : Nat → Prop}, Fr N Q t a I →
    Obs D (Stores N P) (fun y w S => ∃ J, S = .cleaning s J ∧ Q (.ok y) w J) t a (.cleaning s I) := by
  intro t
  induction t with
  | done r => intro a I h y hy; subst hy; exact ⟨I, rfl, h⟩
  | step eff k ih => intro a I h d hd; exact ⟨_, .clean (h d (hD d hd)).1, ih _ (h d (hD d hd)).2⟩

theorem obs_cleanup {Q : Res ε α → World → (Nat → Prop) → Prop} (hD : ∀ d, D d → GoodDisk d) {s : Sealing} {p : Path} {f : Nat} {y : Bytes} {t : Thr ε α} {a : World} (h : Fr N Q t a (· = f)) :
    Obs D (Stores N P) (fun v w S => (S = .temp s p f y ∧ Q (.ok v) w (· = f)) ∨ ∃ J, S = .cleaning s J ∧ Q (.ok v) w J) t a (.temp s p f y) := by
  cases t with
  | done r => intro v hv; subst hv; exact .inl ⟨rfl, h⟩
  | step eff k => intro d hd; exact ⟨_, .first (h d (hD d hd)).1, (obs_cleaning hD (h d (hD d hd)).2).mono fun _ _ _ h => .inr h⟩

/-- Making the temporary file. -/
theorem obs_createTempFile {tmp : PathBuf} {s : Sealing} (hs : Still P s) (hp : Named N (tmp.push [.name ((List.range 16).map fun i => Storage.alphanumeric (a.rng i))])) :
    Obs D (Stores N P) (fun e w S => Kept' a w ∧ ∃ h p t, e = .file (tmp.push [.name ((List.range 16).map fun i => Storage.alphanumeric (a.rng i))]) h ∧ S = .temp s p t [] ∧ w.fd h = ⟨t, 0⟩ ∧ a.nextFd ≤ h ∧ h < w.nextFd)
      (Steps.createTempFile tmp) a (.going s) := by
  unfold Steps.createTempFile
  refine Obs.bind (Q := fun bs w S => S = .going s ∧ Kept' a w ∧ bs = (List.range 16).map a.rng) ?_ fun d _ => ⟨_, still_going hs _ _ rfl rfl, fun y hy => ?_⟩
  · rintro bs w S ⟨rfl, hk, rfl⟩
    rw [List.map_map]
    intro d _
    have hsh : NoShort w.sched → NoShort ((Storage.createFile (tmp.push [.name ((List.range 16).map (Storage.alphanumeric ∘ a.rng))])) (w.on d)).2.sched := fun n => Shrinks.short (.createFile _) (w := w.on d) n
    obtain ⟨sc, ⟨e, h⟩ | ⟨q, hq, hl, h⟩⟩ := createFile_cases (tmp.push [.name ((List.range 16).map (Storage.alphanumeric ∘ a.rng))]) (w.on d) <;> simp only [h] at hsh ⊢
    · exact ⟨_, still_going hs _ _ rfl rfl, fun _ h => nomatch h⟩
    · refine ⟨.temp s q (w.on d).nextIno [], .create (fun q' n hn => ?_) (fun j hj => if_neg (Nat.ne_of_lt hj)) (hp _ _ hq) (look_new _ hl) (if_pos rfl), fun y hy => ?_⟩
      · have hn : (w.on d).look q' = some n := hn
        show (World.created { w.on d with sched := sc } q).look q' = some n
        rw [World.look_created]
        split
        · next e => rw [e] at hn; exact hn
        · rw [if_neg (fun e => by rw [e, hl] at hn; cases hn)]; exact hn
      · cases hy
        have ef : (World.opened (World.created { w.on d with sched := sc } q) (w.on d).nextIno).fd (w.on d).nextFd = ⟨(w.on d).nextIno, 0⟩ := opened_fd (World.created { w.on d with sched := sc } q) _
        exact ⟨hk.trans ⟨.opened (a := w) (w := World.created { w.on d with sched := sc } q) rfl rfl rfl rfl rfl _, hsh⟩, (w.on d).nextFd, q, _, rfl, rfl, ef, hk.fds, Nat.lt_succ_self _⟩
  · cases hy
    exact ⟨rfl, ⟨⟨Nat.le_refl _, fun _ _ => rfl, rfl, List.suffix_refl _, List.suffix_refl _⟩, id⟩, rfl⟩

/-- Writing to it, whatever comes of it. -/
theorem obs_touch {s : Sealing} {p : Path} {h f : Nat} {y : Bytes} {x : Prog ε α} (hx : Within [] [h] x) (hfd : (a.fd h).ino = f) : Obs D (Stores N P) (fun _ _ _ => True) (Thr.atom x) a (.temp s p f y) := fun d _ =>
  have hw := hx (a.on d)
  ⟨_, .fill (keeps_dir hw.dir) (fun j hj => hw.files j fun z hz e => hj (by rw [← e, List.mem_singleton.1 hz]; exact hfd)) rfl, fun _ _ => trivial⟩

/-- Writing the whole archive to it. -/
theorem obs_fill {s : Sealing} {p : Path} {h f : Nat} {b : Bytes} (hfd : a.fd h = ⟨f, 0⟩) :
    Obs D (Stores N P) (fun _ w S => (S = .temp s p f b ∨ S = .lost) ∧ (w.fd h).ino = f ∧ (∀ z, z ≠ h → w.fd z = a.fd z) ∧ w.nextFd = a.nextFd ∧ (NoShort a.sched → NoShort w.sched)) (Thr.atom (writeAll h b)) a (.temp s p f []) := fun d _ => by
  have hw := (show Within [] [h] (writeAll h b) from .writeAll b (by simp)) (a.on d)
  have hsh : NoShort a.sched → NoShort ((writeAll h b) (a.on d)).2.sched := fun n => Shrinks.short (.writeAll h b) (w := a.on d) n
  have hfd' : (a.on d).fd h = ⟨f, 0⟩ := hfd
  have hq : ∀ S : Packing, (S = .temp s p f b ∨ S = .lost) → ∀ y : Unit, (writeAll h b (a.on d)).1 = .ok y → (S = .temp s p f b ∨ S = .lost) ∧ ((writeAll h b (a.on d)).2.fd h).ino = f ∧ (∀ z, z ≠ h → (writeAll h b (a.on d)).2.fd z = a.fd z) ∧
      (writeAll h b (a.on d)).2.nextFd = a.nextFd ∧ (NoShort a.sched → NoShort (writeAll h b (a.on d)).2.sched) := fun S hS _ _ =>
    ⟨hS, by rw [hw.inos h, hfd'], fun z hz => hw.fds z (by simp) (by simpa using hz), hw.nextFd, hsh⟩
  by_cases e0 : d.file f = []
  · cases hr : (writeAll h b (a.on d)).1 with
    | ok u =>
      refine ⟨.temp s p f b, .fill (keeps_dir hw.dir) (fun j hj => hw.files j fun z hz e => hj (by rw [← e, List.mem_singleton.1 hz, hfd'])) ?_, hq _ (.inl rfl)⟩
      rcases writeAll_spec h b (a.on d) with ⟨w', e, hc⟩ | ⟨er, k, w', hk, e, hc⟩ <;> rw [e] at hr <;> cases hr
      simp only [e]
      show w'.file f = _
      rw [World.file_of_core hc]
      simp only [World.put, hfd', if_true]
      show writeAt (d.file f) 0 b = b
      rw [e0, writeAt_nil]
    | err _ =>
      exact ⟨_, .fill (keeps_dir hw.dir) (fun j hj => hw.files j fun z hz e => hj (by rw [← e, List.mem_singleton.1 hz, hfd'])) rfl, fun y hy => by rw [hr] at hy; cases hy⟩
    | abort _ =>
      exact ⟨_, .fill (keeps_dir hw.dir) (fun j hj => hw.files j fun z hz e => hj (by rw [← e, List.mem_singleton.1 hz, hfd'])) rfl, fun y hy => by rw [hr] at hy; cases hy⟩
  · exact ⟨.lost, .astray e0, hq _ (.inr rfl)⟩

end

/-! ## Packing -/

section
variable {det er : Prop} {L : List Char → Disk → Disk → Nat → Prop} {out hdr : List Char} {complete : Bytes → Prop}
variable {ds : List Disk} {a : World} {i : Nat} {x : Bytes}

theorem obs_writeArchive (hD : ∀ d ∈ ds, GoodDisk d ∧ d.file i = x) {z : Zip} {h : Nat} {files : List Storage.Entry} {s : Sealing} (hs : Still P s) {p : Path} {f : Nat} {pth : PathBuf} (hsh : NoShort a.sched) (hfd : a.fd h = ⟨f, 0⟩) (hlt : h < a.nextFd) (hfs : ∀ y ∈ handles files, y < h)
    (hl : ∃ pre g post, files = pre ++ .file pth g :: post ∧ g ∉ handles pre ∧ a.fd g = ⟨i, 0⟩) :
    Obs (· ∈ ds) (Stores N P) (fun _ w S => (∃ l, Readable z l ∧ { name := ZipName.ofPath pth, content := x } ∈ l ∧ S = .temp s p f (z.encode l)) ∧ (w.fd h).ino = f ∧ NoShort w.sched ∨ S = .lost)
      (Steps.writeArchive z h files) a (.temp s p f []) := by
  unfold Steps.writeArchive
  have hst : Still (Stores N P) (.temp s p f []) := still_temp hs
  refine Obs.bind ?_ (Obs.also (fun d hd => (hD d hd).1) (obs_attempt (obs_addAll (G := Stay (Stores N P)) (i := i) (x := x) (fun d hd => (hD d hd).2) (still_stay hst) (z := z) files [] ⟨by simp, by simp⟩)) (FrK.attempt (fr_addAll (N := fun _ _ => True) (I := fun _ => True) z files [])))
  rintro r w S ⟨⟨rfl, hr⟩, hf, -⟩
  cases r with
  | ok l =>
    obtain ⟨-, u, hrd, -, hmem⟩ := hr l rfl
    obtain ⟨pre, g, post, e, hg, hgi⟩ := hl
    have hin := hmem hsh pre pth g post e hg hgi
    have hh : w.fd h = ⟨f, 0⟩ := by rw [u.fd h fun hm => Nat.lt_irrefl _ (hfs h hm)]; exact hfd
    refine Obs.atomErr ((obs_fill hh).mono ?_)
    rintro _ w' S ⟨rfl | rfl, g1, g2, -, g4⟩
    · exact .inl ⟨⟨l, hrd, hin, rfl⟩, g1, g4 (u.short hsh)⟩
    · exact .inr rfl
  | err e =>
    obtain ⟨e, l⟩ := e
    refine Obs.bind (Q := fun _ _ _ => True) (fun _ _ _ _ => .fail) (obs_touch (h := h) ?_ (f := f) ?_)
    · exact .attempt (.writeAll _ (by simp))
    · rw [hf.ino h hlt, hfd]
  | abort e => exact .abort

theorem fileLen_within (h : Nat) : Within [] [] (fileLen h) := by
  refine .bind (fun v => ?_) fun _ => fun _ => .refl _ _ _
  rcases Volaris.sys_cases v with ⟨s, hs, he⟩ | ⟨s, e, hs, hn, he⟩ <;> rw [he] <;>
    exact ⟨fun _ _ => rfl, fun _ => rfl, fun _ _ _ => rfl, rfl, rfl, rfl, rfl, rfl, rfl, rfl⟩

/-- The temporary file is still there or is being erased, and the rest is at a stage with `R`; or somebody has changed that file. -/
def Near (R : Sealing → Prop) (S : Packing) : Prop := S = .lost ∨ ∃ s, R s ∧ ((∃ p t y, S = .temp s p t y) ∨ ∃ J, S = .cleaning s J)

theorem obs_packExecute {C : Crypto} {z : Zip} (hC : C.Lawful) {tmp : PathBuf} {req : Pack.Request} {E : List (List Char × Nat)} {pth : PathBuf} (hD : ∀ d ∈ ds, GoodDisk d ∧ d.file i = x) (hv : req.headerType.version = .v5) (hsh : NoShort a.sched)
    (hp : Named N (tmp.push [.name ((List.range 16).map fun i => Storage.alphanumeric (a.rng i))])) (hfs : ∀ y ∈ handles req.compressFiles, y < a.nextFd)
    (hl : ∃ pre g post, req.compressFiles = pre ++ .file pth g :: post ∧ g ∉ handles pre ∧ a.fd g = ⟨i, 0⟩) (hwr : req.writer < a.nextFd) (ho : (out, (a.fd req.writer).ino) ∈ E) (hsame : ¬ det → hdr = out)
    (hd : det ↔ req.headerWriter ≠ none) (hh : ∀ hw, req.headerWriter = some hw → hw < a.nextFd ∧ hw ≠ req.writer ∧ (hdr, (a.fd hw).ino) ∈ E) :
    Obs (· ∈ ds) (Stores N (Puts det er L out hdr complete)) (fun _ _ S => Near (fun s => ∃ oh hb o start c l, s = .body oh hb o start c ∧ DecryptsTo C req.rawKey (hb ++ c) (z.encode l) ∧ Readable z l ∧ { name := ZipName.ofPath pth, content := x } ∈ l) S)
      (Steps.packExecute C z tmp req) a (.going (.opening E)) := by
  unfold Steps.packExecute
  refine Obs.bind ?_ (Obs.mapErr (obs_createTempFile still_opening hp))
  rintro e w1 S ⟨k1, h, p, f, rfl, rfl, hfd, hge, hlt⟩
  refine Obs.lift fun h' hh' => ?_
  cases hh'
  obtain ⟨pre, g, post, e, hg, hgi⟩ := hl
  have hgin : g ∈ handles req.compressFiles := mem_handles.2 ⟨pth, by rw [e]; simp⟩
  refine Obs.bind ?_ (Obs.also (fun d hd => (hD d hd).1) (obs_writeArchive hD still_opening (k1.short hsh) hfd hlt (fun y hy => Nat.lt_of_lt_of_le (hfs y hy) hge) ⟨pre, g, post, e, hg, (k1.fd g (hfs g hgin)).trans hgi⟩)
    (fr_writeArchive (N := fun _ _ => True) (I := fun _ => True) z _ ⟨hlt, trivial⟩))
  rintro _ w2 S ⟨⟨⟨l, hrd, hin, rfl⟩, i2, n2⟩ | rfl, x2, -⟩
  · refine Obs.bind (Q := fun _ w S => S = .temp (.opening E) p f (z.encode l) ∧ w.fd = w2.fd ∧ w.nextFd = w2.nextFd ∧ NoShort w.sched) ?_ (Obs.mapErr ?_)
    · rintro n w3 S ⟨rfl, e3, e3', n3⟩
      have fdk : ∀ y, y < a.nextFd → (w3.fd y).ino = (a.fd y).ino := fun y hy => by rw [e3, x2.ino y (Nat.lt_of_lt_of_le hy k1.fds), k1.fd y hy]
      have hlt3 : h < w3.nextFd := by rw [e3']; exact Nat.lt_of_lt_of_le hlt x2.fds
      refine Obs.bind ?_ (Obs.also (fun d hd => (hD d hd).1) (obs_during (Obs.mapErr (Obs.on ?_ (obs_execute (ds := ds.filter fun d => decide (d.file f = z.encode l)) hC (req := { reader := h, writer := req.writer, headerWriter := req.headerWriter, rawKey := req.rawKey, headerType := req.headerType, hashingAlgorithm := req.hashingAlgorithm }) (o := (a.fd req.writer).ino)
        hv n3 ?_ ?_ ho hsame hd ?_)))) (FrK.attempt (FrK.mapErr (fr_encryptExecute (N := fun _ _ => True) (I := fun _ => True) C (req := { reader := h, writer := req.writer, headerWriter := req.headerWriter, rawKey := req.rawKey, headerType := req.headerType, hashingAlgorithm := req.hashingAlgorithm }) ?_ ?_))))
      · rintro r w4 S ⟨⟨s', rfl, hr⟩ | rfl, x4, -⟩
        · have ht : Wr h w4 (· = f) := ⟨Nat.lt_of_lt_of_le hlt3 x4.fds, by rw [x4.ino h hlt3, e3]; exact i2⟩
          have htail : FrK N (fun y _ _ => r = .ok y) (do
              let _ ← Steps.attempt (Erase.overwrite h n 2)
              let _ ← Steps.attempt (Steps.removeFile (.file (tmp.push [.name ((List.range 16).map fun i => Storage.alphanumeric (a.rng i))]) h))
              .done r : Thr Pack.Error Unit) w4 (· = f) := by
            refine FrK.bind (Q := Any) (FrK.mono (FrK.attempt (fr_overwrite ht n 2)) fun _ _ _ _ => trivial) fun _ _ _ f5 i5 _ => ?_
            have ht := ht.keep f5 i5
            exact FrK.bind (Q := Any) (FrK.mono (FrK.attempt (fr_removeFile hp ht)) fun _ _ _ _ => trivial) fun _ _ _ _ _ _ => .done fun _ hy => hy
          refine (obs_cleanup (fun d hd => (hD d hd).1) htail).mono ?_
          have main : ∀ v, r = .ok v → ∃ oh hb o start c l, s' = .body oh hb o start c ∧ DecryptsTo C req.rawKey (hb ++ c) (z.encode l) ∧ Readable z l ∧ { name := ZipName.ofPath pth, content := x } ∈ l := by
            intro v hv
            obtain ⟨oh, hb, start, c, y, g1, g2, g3⟩ := hr v hv
            have hy : y = z.encode l := seen_unchanged g2 fun d hd => by
              rw [show (w3.fd h).ino = f from by rw [e3]; exact i2]
              exact of_decide_eq_true (List.mem_filter.1 hd).2
            exact ⟨oh, hb, _, start, c, l, g1, hy ▸ g3, hrd, hin⟩
          rintro v w5 S (⟨rfl, hv⟩ | ⟨J, rfl, hv⟩)
          · exact .inr ⟨s', main v (hv.2.2 v rfl), .inl ⟨_, _, _, rfl⟩⟩
          · exact .inr ⟨s', main v (hv.2.2 v rfl), .inr ⟨_, rfl⟩⟩
        · exact obs_lost fun _ _ => .inl rfl
      · rintro d ⟨h1, h2⟩
        exact List.mem_filter.2 ⟨h1, decide_eq_true h2⟩
      · simp only; omega
      · exact fdk _ hwr
      · intro hw e
        obtain ⟨g1, g3, g4⟩ := hh hw e
        exact ⟨g3, by simp only; omega, by rw [fdk _ g1]; exact g4⟩
      · exact ⟨Nat.lt_of_lt_of_le hwr (by omega), trivial⟩
      · exact fun hw e => ⟨Nat.lt_of_lt_of_le (hh hw e).1 (by omega), trivial⟩
    · unfold Steps.fileLen
      refine Obs.lift fun h' _ => Obs.atomErr ((obs_within (R := []) (fileLen_within h') (.fileLen h') (still_temp still_opening)).mono ?_)
      rintro _ w S ⟨rfl, g1, g2, -, -, -, g3⟩
      exact ⟨rfl, funext fun y => g1 y (by simp), g2, g3 n2⟩
  · exact obs_lost fun _ _ => .inl rfl

/-! ## The command -/

/-- The output is complete and the temporary file is being erased, or somebody has changed that file. -/
def Packing.Ready (complete : Bytes → Prop) : Packing → Prop
  | .cleaning s _ => s.Complete complete
  | .lost => True
  | _ => False

theorem still_ready {S : Packing} (h : S.Ready complete) : Still (Stores N P) S := by
  cases S with
  | cleaning s I => exact still_cleaning
  | lost => exact still_lost
  | going s => exact h.elim
  | temp s p t y => exact h.elim

theorem still_near {R : Sealing → Prop} (hR : ∀ s, R s → Still P s) {S : Packing} (h : Near R S) : Still (Stores N P) S := by
  rcases h with rfl | ⟨s, hs, ⟨p, t, y, rfl⟩ | ⟨J, rfl⟩⟩
  · exact still_lost
  · exact still_temp (hR s hs)
  · exact still_cleaning

theorem obs_lastFlush {D : Disk → Prop} {R : Sealing → Prop} (hR : ∀ s, R s → s.Complete complete) {S : Packing} (h : Near R S) (hd : Nat) : Obs D (Stores N P) (fun _ _ S => S.Ready complete) (Thr.atom (flush hd)) a S := fun d _ => by
  have hw := (show Within [] [] (flush hd) from .flush hd) (a.on d)
  have hf : (flush hd (a.on d)).2.disk.file = d.file := funext fun i => hw.files i (by simp)
  rcases h with rfl | ⟨s, hs, ⟨p, t, y, rfl⟩ | ⟨J, rfl⟩⟩
  · exact ⟨.lost, .lost, fun _ _ => trivial⟩
  · exact ⟨_, .first (.same hw.dir hf hw.nextIno), fun _ _ => hR s hs⟩
  · exact ⟨.cleaning s J, .idle (keeps_dir hw.dir) hf, fun _ _ => hR s hs⟩

theorem obs_anyFile {S : Type} {G : S → Disk → Disk → S → Prop} {D : Disk → Prop} {s : S} (hs : Still G s) : ∀ (ps : List PathBuf) {a : World}, Obs D G (fun _ w s' => s' = s ∧ Kept' a w) (Steps.anyFile ps : Thr ε Bool) a s
  | [], a => .pure ⟨rfl, .refl a⟩
  | p :: ps, a => by
    unfold Steps.anyFile
    refine Obs.bind ?_ (obs_same (fun _ => rfl) hs)
    rintro b w s' ⟨e0, hk⟩
    rw [e0]
    cases b with
    | true => exact .pure ⟨rfl, hk⟩
    | false => exact (obs_anyFile hs ps).mono fun _ _ _ h => ⟨h.1, hk.trans h.2⟩

/-- What is written is the encrypted archive with the file in it. -/
def PacksIn (sys : Sys σ) (a : World) (ds : List Disk) (pth : PathBuf) (x : Bytes) (key : Key) (b : Bytes) : Prop :=
  ∃ pw l, MaySupply key a ds pw ∧ DecryptsTo sys.C pw b (sys.z.encode l) ∧ Readable sys.z l ∧ { name := ZipName.ofPath pth, content := x } ∈ l

theorem obs_packMode {sys : Sys σ} {inputs : List (List Char)} {output : List Char} {params : CryptoParams} {algorithm : Algorithm} (hC : sys.C.Lawful) (hsh : NoShort a.sched) (hD : ∀ d ∈ ds, GoodDisk d ∧ d.file i = x)
    {input : List Char} (hin : input ∈ inputs) {pth : PathBuf} {q : Path} (hf : ∀ d ∈ ds, ∀ w : World, (w.on d).isDirAt (toPath sys.cwd input) = true)
    (hT : ∀ d ∈ ds, (∀ w : World, (w.on d).resolve pth = .ok q) ∧ lookDisk d q = some (.file i)) (hB : ∀ d ∈ ds, ∀ w : World, pth ∈ Storage.World.below (w.on d) (toPath sys.cwd input))
    (htmp : Named N (sys.tmp.push [.name ((List.range 16).map fun i => Storage.alphanumeric (a.rng (keyDraws params.key + i)))])) :
    Obs (· ∈ ds) (Stores N (Puts (params.header ≠ none) False (Leads a sys.cwd) output (params.header.getD output) (PacksIn sys a ds pth x params.key))) (fun _ _ S => S.Ready (PacksIn sys a ds pth x params.key))
      (Steps.packMode sys inputs output ⟨false⟩ params algorithm) a (.going (.opening [])) := by
  have hg : ∀ d ∈ ds, GoodDisk d := fun d hd => (hD d hd).1
  unfold Steps.packMode
  split
  · exact .fail
  refine Obs.bind ?_ (Obs.also hg (obs_going (obs_anyFile still_opening _)) ((fr_anyFile (N := fun _ _ => True) (I := fun _ => True) _).same (Conc.Always.ranyFile _)))
  rintro b w1 S ⟨⟨s', rfl, rfl, k1⟩, -, -, -, r1⟩
  cases b with
  | true => exact .fail
  | false =>
    simp only [Bool.false_eq_true, if_false]
    refine Obs.bind ?_ (Obs.also hg (obs_going (obs_consent _ _ _ still_opening)) ((fr_consent (N := fun _ _ => True) (I := fun _ => True) _ _ _).same (Conc.Always.rconsent _ _ _)))
    rintro _ w2 S ⟨⟨s', rfl, rfl, k2⟩, -, -, -, r2⟩
    refine Obs.bind ?_ (Obs.also hg (obs_going (obs_readInputs sys hf still_opening inputs)) ((fr_readInputs (N := fun _ _ => True) (I := fun _ => True) sys inputs).same (Conc.Always.rreadInputs ..)))
    rintro es w3 S ⟨⟨s', rfl, rfl, k3, he, hdir⟩, -, -, -, r3⟩
    have hdir := hdir hin
    refine Obs.bind ?_ (Obs.also hg (obs_going (obs_getSecret _ _ _ _ still_opening)) (fr_getSecret_drew (N := fun _ _ => True) (I := fun _ => True) _ _ _ _))
    rintro pw w4 S ⟨⟨s', rfl, rfl, k4, hpw⟩, -, -, r4⟩
    have hpw := supply_mono ((k1.toKept.trans k2.toKept).trans k3.toKept) hpw
    refine Obs.bind ?_ (Obs.also hg (obs_going (obs_openOutput _ (name := output) (.inl rfl) fun d d' q i hq hl => ⟨q, (World.resolve_congr (w := a.on d) (w' := w4.on d) rfl _).symm.trans hq, hl⟩))
      ((fr_openOutput (N := fun _ _ => True) (I := fun _ => True) fun _ _ _ => trivial).same (Conc.Always.ropenOutput _)))
    rintro outputFile w5 S ⟨⟨s', rfl, k5, wh, hwh, hle, hlt, -, rfl⟩, -, -, -, r5⟩
    refine Obs.bind ?_ (Obs.also hg (obs_going (obs_openHeader sys _ _ rfl fun name _ d d' q i hq hl => ⟨q, (World.resolve_congr (w := a.on d) (w' := w5.on d) rfl _).symm.trans hq, hl⟩))
      ((fr_openHeader (N := fun _ _ => True) (I := fun _ => True) sys params.force fun _ _ _ _ _ => trivial).same (Conc.Always.ropenHeader ..)))
    rintro headerFile w6 S ⟨⟨s', rfl, k6, E', rfl, hE, hnone, hhd⟩, x6, J6, hwr6, r6⟩
    have done : ∀ {S : Packing} {w : World}, S.Ready (PacksIn sys a ds pth x params.key) → Obs (· ∈ ds) (Stores N (Puts (params.header ≠ none) False (Leads a sys.cwd) output (params.header.getD output) (PacksIn sys a ds pth x params.key)))
        (fun _ _ S => S.Ready (PacksIn sys a ds pth x params.key)) (do Steps.hashIf sys params.hashMode output; if (⟨false⟩ : PackParams).eraseSource then Steps.eraseInputs sys params.force inputs else pure ()) w S := by
      intro S w hS
      refine Obs.bind ?_ (obs_hashIf sys _ _ (still_ready hS))
      rintro _ w S' rfl
      exact .pure hS
    refine Obs.bind (fun _ _ _ hS => done hS) ?_
    unfold Steps.packBody Steps.streamOf
    refine Obs.bind ?_ (Obs.also hg (obs_going (obs_expand hT still_opening hB es fun h hh => ?_)) ((fr_expand (N := fun _ _ => True) (I := fun _ => True) es).same (Conc.Always.rexpand es)))
    · rintro fs w7 S ⟨⟨s', rfl, rfl, k7, hfs, hlist⟩, -, -, -, r7⟩
      obtain ⟨pre, g, post, e, h1, h2, h3, h4⟩ := hlist hdir
      rw [hwh]
      refine Obs.lift fun y hy => ?_
      cases hy
      have htmp' : Named N (sys.tmp.push [.name ((List.range 16).map fun i => Storage.alphanumeric (w7.rng i))]) := by
        have e : (fun i => Storage.alphanumeric (w7.rng i)) = fun i => Storage.alphanumeric (a.rng (keyDraws params.key + i)) := by
          funext j; rw [r7, r6, r5, r4 j, r3, r2, r1]
        rw [e]; exact htmp
      refine Obs.bind ?_ (Obs.mapErr (obs_packExecute hC hD rfl (k7.short (k6.short (k5.short (k4.short (k3.short (k2.short (k1.short hsh))))))) htmp' hfs ⟨pre, g, post, e, h1, h2⟩ ?_ ?_ ?_ ?_ ?_))
      · rintro _ w8 S hS
        have hst : ∀ s : Sealing, (∃ oh hb o start c l, s = .body oh hb o start c ∧ DecryptsTo sys.C pw (hb ++ c) (sys.z.encode l) ∧ Readable sys.z l ∧ { name := ZipName.ofPath pth, content := x } ∈ l) →
            Still (Puts (params.header ≠ none) False (Leads a sys.cwd) output (params.header.getD output) (PacksIn sys a ds pth x params.key)) s ∧ s.Complete (PacksIn sys a ds pth x params.key) := by
          rintro s ⟨oh, hb, o, start, c, l, rfl, g1, g2, g3⟩
          exact ⟨still_body, pw, l, hpw, g1, g2, g3⟩
        refine Obs.bind (Q := fun _ _ S' => S' = S) ?_ ?_
        · rintro _ w9 S' rfl
          unfold Steps.flushFile
          exact Obs.mapErr (Obs.lift fun h _ => Obs.atomErr (obs_lastFlush (fun s hs => (hst s hs).2) hS h))
        · unfold Steps.flushOpt
          cases headerFile with
          | none => exact .pure rfl
          | some e =>
            unfold Steps.flushFile
            refine Obs.mapErr (Obs.lift fun h _ => ?_)
            exact Obs.atomErr (obs_quiet (fun w => have h := (show Within [] [] (flush h) from .flush h) w; ⟨funext fun i => h.files i (by simp), h.dir⟩) (still_near (fun s hs => (hst s hs).1) hS))
      · have := k6.fds; have := k7.fds; simp only; omega
      · exact hE _ (by simp only; rw [k7.fd wh (by have := k6.fds; omega), k6.fd wh hlt]; exact List.mem_cons_self ..)
      · exact fun h => by cases hh : params.header with | none => rfl | some x => exact absurd (by rw [hh]; exact fun h => nomatch h) h
      · exact ⟨fun h e => h (hnone.1 e), fun h e => h (hnone.2 e)⟩
      · intro hw e
        have hw6 := (hwr6 hw e).1
        obtain ⟨h5, h6⟩ := hhd hw e
        refine ⟨Nat.lt_of_lt_of_le hw6 k7.fds, by simp only; omega, ?_⟩
        rw [k7.fd hw hw6]
        cases hh : params.header with
        | none => rw [hnone.2 hh] at e; cases e
        | some y => rw [hh] at h6; exact h6
    · have := he h hh; have := k4.fds; have := k5.fds; have := k6.fds; omega

end

/-- Packing, and then erasing. -/
theorem packMode_split (s : Sys σ) (inputs : List (List Char)) (output : List Char) (packParams : PackParams) (params : CryptoParams) (algorithm : Algorithm) :
    Steps.packMode s inputs output packParams params algorithm =
      (Steps.packMode s inputs output ⟨false⟩ params algorithm >>= fun _ => if packParams.eraseSource then Steps.eraseInputs s params.force inputs else pure ()) := by
  unfold Steps.packMode
  split
  · rfl
  · simp only [thr_assoc]
    congr 1
    funext b
    cases b with
    | true => rfl
    | false =>
      simp only [Bool.false_eq_true, if_false, thr_assoc]
      rfl

/-! ## What is on the disk at each stage -/

section
variable {c : Started σ} {M : List (Disk × Disk)} {i : Nat} {output : List Char} {header : Option (List Char)} {complete : Bytes → Prop}

/-- Where the temporary file is. -/
def TempAt (c : Started σ) (d : Disk) (p : Path) : Prop := ∃ path ∈ c.temporary, (c.self.on d).resolve path = .ok p

/-- What the files of a command hold at each stage. -/
def Held (c : Started σ) (M : List (Disk × Disk)) (output : List Char) (header : Option (List Char)) : Packing → Disk → Prop
  | .going s, d => Link c M output header s d
  | .temp s p t y, d => Link c M output header s d ∧ HasAt d p t y ∧ ∃ st ∈ M, TempAt c st.1 p ∧ lookDisk st.2 p = some (.file t)
  | .cleaning s I, d => Link c M output header s d ∧ ∀ j, I j → ∃ st ∈ M, Seen (TempAt c) st.1 st.2 j
  | .lost, _ => False

/-- A place and a file that have nothing to do with the temporary file. -/
def Off (c : Started σ) (M : List (Disk × Disk)) (p : Path) (o : Nat) : Prop := ∀ st ∈ M, ∀ p', TempAt c st.1 p' → p' ≠ p ∧ lookDisk st.1 p' ≠ some (.file o) ∧ lookDisk st.2 p' ≠ some (.file o)

theorem Off.unseen {p : Path} {o : Nat} (h : Off c M p o) {st : Disk × Disk} (hs : st ∈ M) : ¬ Seen (TempAt c) st.1 st.2 o := by
  rintro ⟨p', h1, h2⟩
  obtain ⟨-, g1, g2⟩ := h st hs p' h1
  exact h2.elim g1 g2

theorem Off.move {p : Path} {o : Nat} (h : Off c M p o) {d d' : Disk} (hM : (d, d') ∈ M) (hd : GoodDisk d) {I : Nat → Prop} (hI : ∀ j, I j → ∃ st ∈ M, Seen (TempAt c) st.1 st.2 j) (hm : Move (TempAt c) I d d') {y : Bytes} (hy : HasAt d p o y) : HasAt d' p o y := by
  refine ⟨Eq.trans (Classical.byContradiction fun hn => ?_) hy.1, Eq.trans (Classical.byContradiction fun hn => ?_) hy.2⟩
  · exact (h _ hM p (hm.look p hn)).1 rfl
  · rcases hm.file o (hd.allocated p o hy.1) hn with h' | h'
    · obtain ⟨st, hs, h'⟩ := hI o h'
      exact h.unseen hs h'
    · exact h.unseen hM h'

theorem Held.step (hhead : ∀ name ∈ header.toList, ∀ st ∈ M, ∀ st' ∈ M, ∀ p p' o, c.LedTo output st p o → ¬ c.LedTo name st' p' o) (hapart : ∀ name ∈ output :: header.toList, ∀ st ∈ M, ∀ p, ¬ c.LedTo name st p i)
    (hoff : ∀ name ∈ output :: header.toList, ∀ st ∈ M, ∀ p o, c.LedTo name st p o → Off c M p o) {q : Path} {x : Bytes} (hq : Off c M q i) {d d' : Disk} (hM : (d, d') ∈ M) (hd : GoodDisk d) (hx : HasAt d q i x) {S S' : Packing}
    (hg : Stores (TempAt c) (Puts (header ≠ none) False (Leads c.self c.s.cwd) output (header.getD output) complete) S d d' S') (h : Held c M output header S d) : Held c M output header S' d' ∧ HasAt d' q i x := by
  cases hg with
  | going hP => exact ⟨Link.step hhead id hM hP h, input_kept hapart id hM hP h hx⟩
  | create hn hf hN hl h0 =>
    refine ⟨⟨Link.keep (fun _ _ _ _ p o y _ hy => hy.keep hn (hf o (hd.allocated p o hy.1))) h, ⟨hl, h0⟩, _, hM, hN, hl⟩, hx.keep hn (hf i (hd.allocated q i hx.1))⟩
  | @fill _ _ s p t y y' hn hf ht =>
    obtain ⟨h1, h2, st, hs, h3, h4⟩ := h
    refine ⟨⟨Link.keep (fun name hnm st' hs' p' o y hled hy => hy.keep hn (hf o fun e => ?_)) h1, h2.to hn ht, st, hs, h3, h4⟩, hx.keep hn (hf i fun e => ?_)⟩
    · exact (hoff name hnm st' hs' p' o hled).unseen hs ⟨p, h3, .inr (e ▸ h4)⟩
    · exact hq.unseen hs ⟨p, h3, .inr (e ▸ h4)⟩
  | @sealing _ _ s s' p t y hP =>
    obtain ⟨h1, h2, st, hs, h3, h4⟩ := h
    refine ⟨⟨Link.step hhead id hM hP h1, input_kept (fun name hnm st' hs' p' hled => ?_) id hM hP h1 h2, st, hs, h3, h4⟩, input_kept hapart id hM hP h1 hx⟩
    exact (hoff name hnm st' hs' p' t hled).unseen hs ⟨p, h3, .inr h4⟩
  | @first _ _ s p t y hm =>
    obtain ⟨h1, h2, st, hs, h3, h4⟩ := h
    have hI : ∀ j, j = t → ∃ st ∈ M, Seen (TempAt c) st.1 st.2 j := fun j e => ⟨st, hs, p, h3, .inr (e ▸ h4)⟩
    exact ⟨⟨Link.keep (fun name hnm st' hs' p' o y hled hy => (hoff name hnm st' hs' p' o hled).move hM hd hI hm hy) h1, fun j hj => hj.elim (hI j) fun h => ⟨_, hM, h⟩⟩, hq.move hM hd hI hm hx⟩
  | clean hm =>
    obtain ⟨h1, hI⟩ := h
    exact ⟨⟨Link.keep (fun name hnm st' hs' p' o y hled hy => (hoff name hnm st' hs' p' o hled).move hM hd hI hm hy) h1, fun j hj => hj.elim (hI j) fun h => ⟨_, hM, h⟩⟩, hq.move hM hd hI hm hx⟩
  | idle hn hf => exact ⟨⟨Link.keep (fun _ _ _ _ p o y _ hy => hy.keep hn (by rw [hf])) h.1, h.2⟩, hx.keep hn (by rw [hf])⟩
  | astray hne => exact absurd h.2.1.2 hne
  | lost => exact h.elim

end

section
variable {M : List (Disk × Disk)} {q : Path} {i : Nat} {x : Bytes} {c : Started σ} {inputs : List (List Char)} {output : List Char} {packParams : PackParams} {params : CryptoParams} {algorithm : Algorithm} {input : List Char} {ns : List Name}

theorem _root_.Volaris.Spec.Started.Packs.off_input (hc : c.Packs M q i inputs output packParams params algorithm input ns) : Off c M q i := by
  rintro st hs p' ⟨path, hp, hr⟩
  exact (hc.temporary path hp st hs p' hr).1

theorem _root_.Volaris.Spec.Started.Packs.off_led (hc : c.Packs M q i inputs output packParams params algorithm input ns) {name : List Char} (hn : name ∈ output :: params.header.toList) {st : Disk × Disk} (hs : st ∈ M) {p : Path} {o : Nat} (hled : c.LedTo name st p o) : Off c M p o := by
  rintro st' hs' p' ⟨path, hp, hr⟩
  exact (hc.temporary path hp st' hs' p' hr).2 name hn st hs p o hled

/-- What the listing finds. -/
theorem _root_.Volaris.Spec.Started.Packs.listed (hc : c.Packs M q i inputs output packParams params algorithm input ns) {d : Disk} (hd : d ∈ before M q i x) (w : World) :
    (w.on d).isDirAt (toPath c.s.cwd input) = true ∧ (w.on d).resolve ((toPath c.s.cwd input).push (ns.map .name)) = .ok q ∧ (toPath c.s.cwd input).push (ns.map .name) ∈ Storage.World.below (w.on d) (toPath c.s.cwd input) := by
  obtain ⟨⟨st, hs, rfl⟩, hg, hx⟩ := mem_before.1 hd
  obtain ⟨hne, top, rfl, hnamed⟩ := hc.named
  have hr := (World.resolve_congr (w := c.self.on st.1) (w' := w.on st.1) rfl _).trans (hnamed st hs hx.1)
  have ht : TreeOk (w.on st.1) := ⟨hg.distinct, hg.parents⟩
  have hl : (w.on st.1).look (top ++ ns) = some (.file i) := hx.1
  have hdir : (w.on st.1).look top = some .dir := by
    have := ht.ancestors top ns.length ns rfl (by rw [hl]; rfl) 0 (List.length_pos_iff.2 hne)
    simpa using this
  refine ⟨?_, World.resolve_push hr ht (by rw [hl]; rfl), (mem_below ht ⟨hr, hdir⟩ _).2 ⟨ns, _, hl, rfl⟩⟩
  unfold World.isDirAt
  rw [hr]
  simp [hdir]

/-- Packing. -/
def packWork {cs : List (Started σ)} {k : Nat} {P : Disk → Prop} (hc : c.Packs M q i inputs output packParams params algorithm input ns) (hu : c.Undisturbed cs k M output params.header) (ht : c.TempUndisturbed cs k M)
    (hP : ∀ d, c.HasPacked M output params input ns x d → P d) : Work cs M q i x P k c where
  S := Packing
  G := Stores (TempAt c) (Puts (params.header ≠ none) False (Leads c.self c.s.cwd) output (params.header.getD output) (PacksIn c.s c.self (before M q i x) ((toPath c.s.cwd input).push (ns.map .name)) x params.key))
  start := .going (.opening [])
  link := Held c M output params.header
  ready := fun S => S.Ready (PacksIn c.s c.self (before M q i x) ((toPath c.s.cwd input).push (ns.map .name)) x params.key)
  first := Steps.packMode c.s inputs output ⟨false⟩ params algorithm
  last := if packParams.eraseSource then Steps.eraseInputs c.s params.force inputs else pure ()
  spot := fun d q => packParams.eraseSource = true ∧ ∃ f ∈ inputs, ∃ top, (c.self.on d).resolve (toPath c.s.cwd f) = .ok top ∧ top <+: q
  steps := by rw [hc.cmd]; exact packMode_split ..
  obs := obs_packMode hc.lawful hc.noShort (fun d hd => ⟨(mem_before.1 hd).2.1, (mem_before.1 hd).2.2.2⟩) hc.given (fun d hd w => (hc.listed hd w).1) (fun d hd => ⟨fun w => (hc.listed hd w).2.1, (mem_before.1 hd).2.2.1⟩)
    (fun d hd w => (hc.listed hd w).2.2) fun w p hp => ⟨_, by unfold Started.temporary; rw [hc.cmd]; exact List.mem_singleton.2 rfl, (World.resolve_congr (w := w) (w' := c.self.on w.disk) rfl _).trans hp⟩
  erases := fun a => by
    split
    · next he => exact fr_eraseInputs c.s _ fun f hf w top q' hq hp => ⟨he, f, hf, top, (World.resolve_congr (w := w) (w' := c.self.on w.disk) rfl _).trans hq, hp⟩
    · exact trivial
  init := fun _ _ h => (nomatch h)
  own := fun _ _ _ _ hM hd hx hg hl => Held.step hc.header hc.apart (fun _ hn _ hs _ _ hled => hc.off_led hn hs hled) hc.off_input hM hd hx hg hl
  others := fun d d' S hk hl => by
    have keep : ∀ {s : Sealing}, Link c M output params.header s d → Link c M output params.header s d' := fun hl =>
      hl.keep fun name hn st hs p o y hled hy => hk p o y (fun k' c' hc' hne => hu k' c' hc' hne name hn st hs p o hled) hy
    cases S with
    | going s => exact keep hl
    | temp s p t y =>
      obtain ⟨h1, h2, st, hs, ⟨path, hp, hr⟩, h4⟩ := hl
      exact ⟨keep h1, hk p t y (fun k' c' hc' hne => ht k' c' hc' hne path hp st hs p t hr h4) h2, st, hs, ⟨path, hp, hr⟩, h4⟩
    | cleaning s I => exact ⟨keep hl.1, hl.2⟩
    | lost => exact hl
  later := fun d d' S hS hk hl => by
    cases S with
    | going s => exact hS.elim
    | temp s p t y => exact hS.elim
    | lost => exact hl
    | cleaning s I =>
      refine ⟨hl.1.keep fun name hn st hst p o y hled hy => hk p o y (fun st' hs' p' => ?_) hy, hl.2⟩
      rintro ⟨he, f, hf, top, htop, hpre⟩
      obtain ⟨g1, g2⟩ := hc.own he f hf name hn st hst p o hled st' hs' top htop
      exact ⟨fun e => g1 (e ▸ hpre), g2 p' hpre⟩
  gives := fun d S hS hl => by
    cases S with
    | going s => exact hS.elim
    | temp s p t y => exact hS.elim
    | lost => exact hl.elim
    | cleaning s I =>
      obtain ⟨hl, -⟩ := hl
      cases s with
      | opening E => exact hS.elim
      | erasing => exact hl.elim
      | body oh hb o start b =>
        obtain ⟨pw, l, hsup, hdec, hrd, hin⟩ := hS
        have hsub : ∀ d ∈ before M q i x, d ∈ M.map (·.1) := fun d hd => List.mem_map.2 (mem_before.1 hd).1
        refine hP d ⟨c.s.z.encode l, _, ?_, hc.zip.decode_encode l hrd.distinct hrd.storable, List.mem_map.2 ⟨_, hin, rfl⟩⟩
        unfold Link at hl
        unfold Started.HasSealed
        cases hh : params.header with
        | none =>
          rw [hh] at hl
          obtain ⟨-, -, st, hst, p, h1, h2⟩ := hl
          exact ⟨st, hst, p, o, pw, h1, h2.1, supply_more hsub hsup, by rw [h2.2]; exact hdec⟩
        | some name =>
          rw [hh] at hl
          obtain ⟨-, ⟨st, hst, p, h1, h2⟩, st', hst', p', h3, h4⟩ := hl
          exact ⟨st, hst, p, o, pw, h1, h2.1, supply_more hsub hsup, st', hst', p', oh, h3, h4.1, by rw [h2.2, h4.2]; exact hdec⟩

end

end Volaris.Dist
