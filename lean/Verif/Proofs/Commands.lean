import Verif.Spec.Commands
import Verif.Proofs.Stages
import Verif.Proofs.Fresh
import Verif.Proofs.KeyFiles
/-!
# The smaller commands
-/
namespace Volaris.Cli
open Volaris.Spec
variable {σ : Type}

/-- From `w` to `w'` handles and positions may have changed, and the schedule was consumed. -/
structure Same (w w' : World) : Prop where
  file : w'.file = w.file
  dir : w'.dir = w.dir
  env : w'.env = w.env
  stdin : w'.stdin = w.stdin
  tty : w'.tty = w.tty
  rng : w'.rng = w.rng
  nextIno : w'.nextIno = w.nextIno
  sched : w'.sched <:+ w.sched

namespace Same
variable {w w' w'' : World}

theorem refl (w : World) : Same w w := ⟨rfl, rfl, rfl, rfl, rfl, rfl, rfl, List.suffix_refl _⟩

theorem trans (h : Same w w') (g : Same w' w'') : Same w w'' :=
  ⟨g.file.trans h.file, g.dir.trans h.dir, g.env.trans h.env, g.stdin.trans h.stdin, g.tty.trans h.tty, g.rng.trans h.rng, g.nextIno.trans h.nextIno,
    g.sched.trans h.sched⟩

theorem of_sched (w : World) {s : List Io} (h : s <:+ w.sched) : Same w { w with sched := s } := ⟨rfl, rfl, rfl, rfl, rfl, rfl, rfl, h⟩

theorem opened (w : World) (i : Nat) : Same w (w.opened i) := ⟨rfl, rfl, rfl, rfl, rfl, rfl, rfl, List.suffix_refl _⟩

theorem core {h p : Nat} (hc : w'.core = (w.setPos h p).core) (hs : w'.sched <:+ w.sched) : Same w w' :=
  ⟨(World.file_of_core hc).trans rfl, (World.dir_of_core hc).trans rfl, (World.env_of_core hc).trans rfl, (World.stdin_of_core hc).trans rfl,
    (World.tty_of_core hc).trans rfl, (World.rng_of_core hc).trans rfl, (World.nextIno_of_core hc).trans rfl, hs⟩

theorem look (h : Same w w') (q : Path) : w'.look q = w.look q := World.look_congr h.dir q
theorem resolve (h : Same w w') (p : PathBuf) : w'.resolve p = w.resolve p := World.resolve_congr h.dir p

theorem leads (h : Same w w') (p : PathBuf) (q : Path) (i : Nat) : LeadsToFile w' p q i ↔ LeadsToFile w p q i :=
  ⟨fun hl => ⟨by rw [← h.resolve]; exact hl.resolve, by rw [← h.look]; exact hl.look⟩,
   fun hl => ⟨by rw [h.resolve]; exact hl.resolve, by rw [h.look]; exact hl.look⟩⟩

theorem supplies (h : Same w w') {words : List (List Char)} {cwd : Path} {state : PasswordState} {key : Key} {x : Bytes}
    (hs : Supplies words cwd state key w' x) : Supplies words cwd state key w x := by
  unfold Supplies at hs ⊢
  simp only [h.leads, h.file, h.stdin, h.env, h.tty, supplied, h.rng] at hs ⊢
  exact hs

end Same

theorem _root_.Volaris.Looked.noShort {n : Nat} {w w' : World} (h : Looked n w w') (hs : NoShort w.sched) : NoShort w'.sched :=
  fun k hk => hs k (h.sched.subset hk)

theorem LeadsToFile_unique {w : World} {p : PathBuf} {q q' : Path} {i i' : Nat} (h : LeadsToFile w p q i) (h' : LeadsToFile w p q' i') :
    q = q' ∧ i = i' := by
  have e := h.resolve.symm.trans h'.resolve
  cases e
  have e := h.look.symm.trans h'.look
  cases e
  exact ⟨rfl, rfl⟩

/-! ### Hashing files -/

theorem hashOne_cases (s : Sys σ) (input : List Char) (w : World) :
    (∃ (q : Path) (i : Nat) (pieces : List Bytes) (w' : World), LeadsToFile w (toPath s.cwd input) q i ∧
      (do
        let h ← (Volaris.openFile (toPath s.cwd input)).mapErr fun _ => Error.openFile
        (HashCmd.execute s.H h).mapErr .hash) w = (.ok (s.H.finish (pieces.foldl s.H.write s.H.init)), w') ∧
      (NoShort w.sched → pieces.flatten = w.file i)) ∨
    (∃ e w', (do
        let h ← (Volaris.openFile (toPath s.cwd input)).mapErr fun _ => Error.openFile
        (HashCmd.execute s.H h).mapErr .hash) w = (.err e, w') ∧ (w.sched ≠ [] ∨ ¬ ∃ q i, LeadsToFile w (toPath s.cwd input) q i)) := by
  rcases openFile_any (toPath s.cwd input) w with ⟨q, i, s', hs, hl, he⟩ | ⟨e, s', hs, he, hw⟩
  · rw [Prog.bind_ok (Prog.mapErr_ok he)]
    rcases HashCmd.execute_cases s.H w.nextFd (({ w with sched := s' } : World).opened i) with ⟨ps, w', h1, _, h2, _⟩ | ⟨e, w', h1, h2, _⟩
    · left
      refine ⟨q, i, ps, w', hl, by rw [Prog.mapErr_ok h1], fun hn => ?_⟩
      rw [h2 (fun k hk => hn k (hs.subset hk))]
      show (({ w with sched := s' } : World).opened i).file ((({ w with sched := s' } : World).opened i).fd ({ w with sched := s' } : World).nextFd).ino = _
      rw [opened_fd]
      rfl
    · right
      refine ⟨_, w', by rw [Prog.mapErr_err h1], .inl ?_⟩
      intro h0
      rw [h0] at hs
      exact h2 (List.suffix_nil.1 hs)
  · right
    exact ⟨_, _, by rw [Prog.bind_err (Prog.mapErr_err he)], hw⟩

theorem hashStream_cases (s : Sys σ) (digest : Bytes → String) (hH : Computes s.H digest) : ∀ (files : List (List Char)) (w : World),
    (∃ ds w', hashStream s files w = (.ok ds, w') ∧ ds.length = files.length ∧ (∀ f ∈ files, ∃ c, ContentAt w (toPath s.cwd f) c) ∧
      (NoShort w.sched → ∀ (k : Nat) f d, files[k]? = some f → ds[k]? = some d → ∃ c, ContentAt w (toPath s.cwd f) c ∧ d = digest c)) ∨
    (∃ e w', hashStream s files w = (.err e, w') ∧ (w.sched ≠ [] ∨ ∃ f ∈ files, ∀ c, ¬ ContentAt w (toPath s.cwd f) c))
  | [], w => .inl ⟨[], w, rfl, rfl, by simp, by simp⟩
  | f :: fs, w => by
    have hlook := (hashStream_looks s w.nextFd [f] w (Nat.le_refl _)).1
    unfold hashStream
    have hassoc : (do
        let h ← (Volaris.openFile (toPath s.cwd f)).mapErr fun _ => Error.openFile
        let d ← (HashCmd.execute s.H h).mapErr .hash
        say ("[+] ".toList ++ f ++ ": ".toList ++ d.toList)
        let ds ← hashStream s fs
        pure (d :: ds) : Prog Error (List String)) w =
      ((do
        let h ← (Volaris.openFile (toPath s.cwd f)).mapErr fun _ => Error.openFile
        (HashCmd.execute s.H h).mapErr .hash : Prog Error String) >>= fun d => do
        say ("[+] ".toList ++ f ++ ": ".toList ++ d.toList)
        let ds ← hashStream s fs
        pure (d :: ds)) w := by
      simp only [Prog.bind_run]
      rcases ((Volaris.openFile (toPath s.cwd f)).mapErr fun _ => Error.openFile) w with ⟨r, w1⟩
      cases r <;> rfl
    have hone : hashStream s [f] w =
      ((do
        let h ← (Volaris.openFile (toPath s.cwd f)).mapErr fun _ => Error.openFile
        (HashCmd.execute s.H h).mapErr .hash : Prog Error String) >>= fun d => do
        say ("[+] ".toList ++ f ++ ": ".toList ++ d.toList)
        pure [d]) w := by
      unfold hashStream
      simp only [Prog.bind_run]
      rcases ((Volaris.openFile (toPath s.cwd f)).mapErr fun _ => Error.openFile) w with ⟨r, w1⟩
      cases r with
      | ok h =>
        simp only
        rcases ((HashCmd.execute s.H h).mapErr Error.hash) w1 with ⟨r, w2⟩
        cases r <;> rfl
      | _ => rfl
    rw [hassoc]
    rcases hashOne_cases s f w with ⟨q, i, ps, w1, hl, he, hc⟩ | ⟨e, w1, he, hw⟩
    · rw [Prog.bind_ok he]
      rw [hone, Prog.bind_ok he] at hlook
      replace hlook : Looked w.nextFd w (w1.said _) := hlook
      rw [Prog.bind_ok (say_run _ _)]
      generalize w1.said _ = w1 at hlook ⊢
      have hcont : ∀ g c, ContentAt w1 g c ↔ ContentAt w g c := by
        intro g c
        unfold ContentAt
        simp only [hlook.leads, hlook.file]
      rcases hashStream_cases s digest hH fs w1 with ⟨ds, w2, h1, h2, h3, h4⟩ | ⟨e, w2, h1, h2⟩
      · left
        refine ⟨_, w2, by rw [Prog.bind_ok h1]; rfl, by simp [h2], ?_, ?_⟩
        · intro g hg
          rcases List.mem_cons.1 hg with rfl | hg
          · exact ⟨_, q, i, hl, rfl⟩
          · obtain ⟨c, hc⟩ := h3 g hg; exact ⟨c, (hcont _ _).1 hc⟩
        · intro hn k g d hg hd
          cases k with
          | zero =>
            simp only [List.getElem?_cons_zero, Option.some.injEq] at hg hd
            subst hg hd
            exact ⟨_, ⟨q, i, hl, rfl⟩, by rw [hH ps, hc hn]⟩
          | succ k =>
            simp only [List.getElem?_cons_succ] at hg hd
            obtain ⟨c, h5, h6⟩ := h4 (hlook.noShort hn) k g d hg hd
            exact ⟨c, (hcont _ _).1 h5, h6⟩
      · right
        refine ⟨e, w2, by rw [Prog.bind_err h1], ?_⟩
        rcases h2 with h2 | ⟨g, hg, h2⟩
        · left; intro h0; have hsf := hlook.sched; rw [h0] at hsf; exact h2 (List.suffix_nil.1 hsf)
        · exact .inr ⟨g, by simp [hg], fun c hc => h2 c ((hcont _ _).2 hc)⟩
    · right
      refine ⟨e, w1, by rw [Prog.bind_err he], ?_⟩
      rcases hw with hw | hw
      · exact .inl hw
      · exact .inr ⟨f, by simp, fun c ⟨q, i, hl, _⟩ => hw ⟨q, i, hl⟩⟩

/-! ### Header details -/

theorem openHeader_any (s : Sys σ) (input : List Char) (w : World) :
    (∃ q i hd aad w', LeadsToFile w (toPath s.cwd input) q i ∧ IsHeader (w.file i) hd aad ∧
      Volaris.openFile (toPath s.cwd input) w = (.ok w.nextFd, w') ∧ (∃ w'', deserialize w.nextFd w' = (.ok (hd, aad), w'') ∧ Same w w'' ∧
        (w''.fd w.nextFd).ino = i ∧ w.nextFd < w''.nextFd)) ∨
    (∃ q i e w', LeadsToFile w (toPath s.cwd input) q i ∧
      Volaris.openFile (toPath s.cwd input) w = (.ok w.nextFd, w') ∧ (∃ w'', deserialize w.nextFd w' = (.err e, w'') ∧ Same w w'') ∧
        (w.sched ≠ [] ∨ NoHeader (w.file i))) ∨
    (∃ e w', Volaris.openFile (toPath s.cwd input) w = (.err e, w') ∧ Same w w' ∧
      (w.sched ≠ [] ∨ ¬ ∃ q i, LeadsToFile w (toPath s.cwd input) q i)) := by
  rcases openFile_any (toPath s.cwd input) w with ⟨q, i, s', hs, hl, he⟩ | ⟨e, s', hs, he, hw⟩
  · have hrest : (({ w with sched := s' } : World).opened i).rest w.nextFd = w.file i := opened_rest { w with sched := s' } i
    have hfd : (({ w with sched := s' } : World).opened i).fd w.nextFd = { ino := i, pos := 0 } := opened_fd { w with sched := s' } i
    have hsame : Same w (({ w with sched := s' } : World).opened i) := (Same.of_sched w hs).trans (.opened _ _)
    have hsh := Shrinks.deserialize w.nextFd (({ w with sched := s' } : World).opened i)
    have hnf : (({ w with sched := s' } : World).opened i).nextFd = w.nextFd + 1 := rfl
    generalize ({ w with sched := s' } : World).opened i = w1 at *
    rcases deserialize_cases w.nextFd w1 with ⟨hd, aad, w2, h1, h2, h3⟩ | ⟨e, w2, p, h1, h3⟩
    · left
      rw [h1] at hsh
      refine ⟨q, i, hd, aad, w1, hl, by rw [← hrest]; exact h2, he, w2, h1, hsame.trans (.core h3 hsh), ?_, ?_⟩
      · rw [World.fd_of_core h3]; simp [World.adv, hfd]
      · rw [World.nextFd_of_core h3]; show _ < w1.nextFd; omega
    · right; left
      rw [h1] at hsh
      refine ⟨q, i, e, w1, hl, he, ⟨w2, h1, hsame.trans (.core h3 hsh)⟩, ?_⟩
      by_cases h0 : w.sched = []
      · right
        intro hd aad hi
        rw [← hrest] at hi
        have hs1 : w1.sched = [] := by have := hsame.sched; rw [h0] at this; exact List.suffix_nil.1 this
        rw [deserialize_isHeader hs1 hi] at h1
        cases h1
      · exact .inl h0
  · right; right
    exact ⟨e, _, he, .of_sched w hs, hw⟩

theorem hexEncode_eq (bs : Bytes) : String.ofList (hexEncode bs) = hexString bs := by
  unfold hexString
  congr 1
  have hd : ∀ n, n < 16 → hexDigit n = ("0123456789abcdef".toList)[n]?.getD '?' := by decide
  induction bs with
  | nil => rfl
  | cons b bs ih =>
    have : b.toNat < 256 := b.toNat_lt
    rw [hexEncode, List.flatMap_cons, ih, hexOf, hd _ (by omega), hd _ (by omega)]
    rfl

theorem display_eq (h : HashingAlgorithm) : h.display = hashName h := by cases h <;> rfl

theorem slotLines_eq : ∀ (ks : List Keyslot) (n : Nat), slotLines n ks = ((ks.zipIdx n).map fun k => slotText k.2 k.1).flatten
  | [], _ => rfl
  | k :: ks, n => by
    rw [slotLines, slotLines_eq ks (n + 1), List.zipIdx_cons, List.map_cons, List.flatten_cons]
    simp only [slotText, hexText, hexEncode_eq, display_eq, String.append_assoc]

theorem keyLines_ok {bs : Bytes} {hd : Header} {aad : Bytes} (hi : IsHeader bs hd aad) : ∃ rest, keyLines hd = .ok rest ∧
    (match impliedHash hd.headerType.version with
    | some h => ∃ salt, hd.salt = some salt ∧ rest = ["Salt: " ++ hexString salt ++ " (hex)", "Hashing Algorithm: " ++ hashName h]
    | none => ∃ ks, hd.keyslots = some ks ∧ rest = (ks.zipIdx.map fun k => slotText k.2 k.1).flatten) := by
  have hf := hi.fields
  unfold keyLines
  cases hv : hd.headerType.version <;> simp only [hv] at hf ⊢ <;> simp only [impliedHash]
  · rw [hf.1]; exact ⟨_, rfl, _, rfl, by simp only [hexText, hexEncode_eq, display_eq, String.append_assoc]⟩
  · rw [hf.1]; exact ⟨_, rfl, _, rfl, by simp only [hexText, hexEncode_eq, display_eq, String.append_assoc]⟩
  · rw [hf.1]; exact ⟨_, rfl, _, rfl, by simp only [hexText, hexEncode_eq, display_eq, String.append_assoc]⟩
  · rw [hf.2.1]; exact ⟨_, rfl, _, rfl, slotLines_eq _ _⟩
  · obtain ⟨ks, h1, _⟩ := hf.2.1
    rw [h1]; exact ⟨_, rfl, _, rfl, slotLines_eq _ _⟩

/-- Lines were printed. -/
def _root_.Volaris.World.saidAll : World → List String → World
  | w, [] => w
  | w, l :: ls => (w.said l.toList).saidAll ls

theorem sayAll_run : ∀ (ls : List String) (w : World), sayAll ls w = (.ok (), w.saidAll ls)
  | [], _ => rfl
  | l :: ls, w => by
    unfold sayAll
    rw [Prog.bind_ok (say_run _ w), sayAll_run ls]
    rfl

theorem Same.saidAll : ∀ (ls : List String) (w : World), Same w (w.saidAll ls)
  | [], w => .refl w
  | _ :: ls, w => (show Same w (w.said _) from ⟨rfl, rfl, rfl, rfl, rfl, rfl, rfl, List.suffix_refl _⟩).trans (Same.saidAll ls _)

theorem headerDetails_cases (s : Sys σ) (input : List Char) (w : World) :
    (∃ ls w', headerDetails s input w = (.ok ls, w') ∧ Same w w' ∧
      ∃ q i hd aad, LeadsToFile w (toPath s.cwd input) q i ∧ IsHeader (w.file i) hd aad ∧ Describes hd aad ls) ∨
    (∃ e w', headerDetails s input w = (.err e, w') ∧ Same w w' ∧
      (w.sched ≠ [] ∨ ∀ q i, LeadsToFile w (toPath s.cwd input) q i → NoHeader (w.file i))) := by
  unfold headerDetails
  rcases openHeader_any s input w with ⟨q, i, hd, aad, w1, hl, hi, h1, w2, h2, hS, _⟩ | ⟨q, i, e, w1, hl, h1, ⟨w2, h2, hS⟩, hw⟩ | ⟨e, w1, h1, hS, hw⟩
  · left
    obtain ⟨rest, hr, hrest⟩ := keyLines_ok hi
    rw [Prog.bind_ok (Prog.mapErr_ok h1), Prog.bind_ok (Prog.mapErr_ok h2)]
    simp only [hr]
    rw [Prog.bind_ok (sayAll_run _ w2), Prog.bind_ok (show Prog.lift (.ok rest : Res Error (List String)) (w2.saidAll _) = (.ok rest, w2.saidAll _) from rfl), Prog.bind_ok (sayAll_run _ _)]
    refine ⟨_, _, rfl, hS.trans ((Same.saidAll _ _).trans (Same.saidAll _ _)), q, i, hd, aad, hl, hi, showVersion hd.headerType.version, showAlgorithm hd.headerType.algorithm,
      showMode hd.headerType.mode, rest, ?_, ?_, ?_, ?_, hrest⟩
    · simp only [hexText, hexEncode_eq, String.append_assoc]
    · cases hd.headerType.version <;> simp [showVersion]
    · cases hd.headerType.algorithm <;> simp [showAlgorithm]
    · cases hd.headerType.mode <;> simp [showMode]
  · right
    refine ⟨_, w2, by rw [Prog.bind_ok (Prog.mapErr_ok h1), Prog.bind_err (Prog.mapErr_err h2)], hS, ?_⟩
    rcases hw with hw | hw
    · exact .inl hw
    · exact .inr fun q' i' hl' => by rw [← (LeadsToFile_unique hl hl').2]; exact hw
  · right
    refine ⟨_, w1, by rw [Prog.bind_err (Prog.mapErr_err h1)], hS, ?_⟩
    rcases hw with hw | hw
    · exact .inl hw
    · exact .inr fun q' i' hl' => absurd ⟨q', i', hl'⟩ hw

/-! ### Secrets -/

theorem passphraseLoop_taken {ε : Type} (words : List (List Char)) : ∀ (n : Nat) (acc : List Char),
    Forward (passphraseLoop words n acc : Prog ε (List Char))
  | 0, _ => .pure _
  | n + 1, acc => by
    unfold passphraseLoop
    refine .bind (.bind (.genBytes 8) fun bs => .pure _) fun i => ?_
    split
    · exact .panic
    · exact passphraseLoop_taken words n _

/-- A program that leaves everything but handles and random bytes alone. -/
theorem passphraseLoop_same {ε : Type} (words : List (List Char)) : ∀ (n : Nat) (acc : List Char) (w : World),
    ∃ r, ((passphraseLoop words n acc : Prog ε (List Char)) w).2 = { w with rng := r }
  | 0, _, w => ⟨w.rng, rfl⟩
  | n + 1, acc, w => by
    unfold passphraseLoop
    have hg : (genRangeIncl words.length : Prog ε Nat) w =
      (.ok (leValue ((List.range 8).map w.rng) % (words.length + 1)), { w with rng := fun i => w.rng (i + 8) }) := rfl
    rw [Prog.bind_ok hg]
    cases words[leValue ((List.range 8).map w.rng) % (words.length + 1)]? with
    | none => exact ⟨_, rfl⟩
    | some word =>
      obtain ⟨r, hr⟩ := passphraseLoop_same words n (acc ++ word ++ if n = 0 then [] else ['-']) { w with rng := fun i => w.rng (i + 8) }
      exact ⟨r, hr⟩

theorem fetch_taken {words : List (List Char)} {cwd : Path} {key : Key} {w w' : World} {x : Bytes}
    (h : fetch words cwd .direct key w = (.ok x, w')) : Taken key x w w' := by
  cases key with
  | keyfile path =>
    rw [fetch] at h
    split at h
    · rename_i hp
      subst hp
      rcases readStdin_cases w with ⟨s, hs, he⟩ | ⟨e, s, hs, _, he⟩
      · rw [Prog.bind_ok he] at h
        split at h
        · cases h
        · cases h; exact ⟨rfl, rfl, rfl, rfl, rfl, rfl⟩
      · rw [Prog.bind_err he] at h; cases h
    · rename_i hp
      unfold readKeyfile at h
      rcases openFile_any (toPath cwd path) w with ⟨q, i, s, hs, hl, he⟩ | ⟨e, s, hs, he, _⟩
      · rw [Prog.bind_ok (Prog.mapErr_ok he)] at h
        have hst : ∀ v : World, v.core = ((({ w with sched := s } : World).opened i).adv w.nextFd (w.file i).length).core → Taken (.keyfile path) x w v := by
          intro v hv
          refine ⟨(World.file_of_core hv).trans rfl, (World.dir_of_core hv).trans rfl, (World.env_of_core hv).trans rfl, ?_, ?_, (World.rng_of_core hv).trans rfl⟩
          · rw [if_neg (by simp)]; exact (World.tty_of_core hv).trans rfl
          · rw [if_neg (by simpa using hp)]; exact (World.stdin_of_core hv).trans rfl
        have hrest : (({ w with sched := s } : World).opened i).rest w.nextFd = w.file i := opened_rest { w with sched := s } i
        rcases readUpTo_spec w.nextFd (((({ w with sched := s } : World).opened i).rest w.nextFd).length + 1) (({ w with sched := s } : World).opened i) with
          ⟨s', e1⟩ | ⟨k, s', _, e1⟩
        · rw [List.take_of_length_le (by omega)] at e1
          rw [Prog.bind_ok (Prog.mapErr_ok (show readToEnd w.nextFd _ = _ from e1)), hrest] at h
          split at h
          · cases h
          · cases h
            exact hst _ rfl
        · rw [Prog.bind_err (Prog.mapErr_err (show readToEnd w.nextFd _ = _ from e1))] at h
          cases h
      · rw [Prog.bind_err (Prog.mapErr_err he)] at h; cases h
  | env =>
    change readEnv w = _ at h
    unfold readEnv at h
    cases he : w.env with
    | none => rw [he] at h; cases h
    | some v => rw [he] at h; cases h; exact ⟨rfl, rfl, rfl, rfl, rfl, rfl⟩
  | generate i =>
    rw [fetch] at h
    have h1 := passphraseLoop_taken (ε := Error) words i.toNat [] w
    obtain ⟨r, h2⟩ := passphraseLoop_same (ε := Error) words i.toNat [] w
    unfold generatePassphrase at h
    rcases hg : (passphraseLoop words i.toNat [] : Prog Error (List Char)) w with ⟨res, w1⟩
    rw [hg] at h1 h2
    simp only at h1 h2
    cases res with
    | ok y =>
      rw [Prog.bind_ok hg] at h
      cases h
      subst h2
      exact ⟨rfl, rfl, rfl, rfl, rfl, h1⟩
    | err e => rw [Prog.bind_err hg] at h; cases h
    | abort a => rw [Prog.bind_run, hg] at h; cases h
  | user =>
    change getPassword .direct w = _ at h
    unfold getPassword at h
    rcases directPassword_cases w.tty w rfl with ⟨y, rest, s, h1, h2, h3⟩ | ⟨s, h2, h3, _⟩
    · simp only [h3] at h
      cases h
      exact ⟨rfl, rfl, rfl, h1, rfl, rfl⟩
    · simp only [h3] at h
      cases h

theorem getSecret_taken {words : List (List Char)} {cwd : Path} {key : Key} {w w' : World} {x : Bytes}
    (h : getSecret words cwd key .direct w = (.ok x, w')) : Taken key x w w' := by
  unfold getSecret at h
  rw [Prog.bind_run] at h
  rcases hf : fetch words cwd .direct key w with ⟨r, w1⟩
  rw [hf] at h
  cases r with
  | ok y =>
    simp only at h
    split at h
    · cases h
    · cases h; exact fetch_taken hf
  | err e => cases h
  | abort a => cases h

theorem Same.taken {key : Key} {x : Bytes} {w w' u : World} (h : Same w w') (t : Taken key x w' u) : Taken key x w u where
  file := t.file.trans h.file
  dir := t.dir.trans h.dir
  env := t.env.trans h.env
  tty := by have := t.tty; rw [h.tty] at this; exact this
  stdin := by have := t.stdin; rw [h.stdin] at this; exact this
  rng := by
    have := t.rng
    cases key with
    | generate n => obtain ⟨m, hm⟩ := this; exact ⟨m, fun i => by rw [hm i, h.rng]⟩
    | _ => exact Eq.trans this h.rng

/-! ### Opening a file for the key commands -/

theorem openV5_cases (s : Sys σ) (input : List Char) (w : World) :
    (∃ q i hd aad w', openV5 s input w = (.ok w.nextFd, w') ∧ Same w w' ∧ LeadsToFile w (toPath s.cwd input) q i ∧ IsHeader (w.file i) hd aad ∧
      hd.headerType.version = .v5 ∧ w'.fd w.nextFd = { ino := i, pos := 0 } ∧ w.nextFd < w'.nextFd) ∨
    (∃ e w', openV5 s input w = (.err e, w') ∧ Same w w' ∧
      (w.sched = [] → ∀ q i, LeadsToFile w (toPath s.cwd input) q i → ∀ hd aad, IsHeader (w.file i) hd aad → hd.headerType.version ≠ .v5 ∧ e = .notV5)) := by
  unfold openV5
  rcases openHeader_any s input w with ⟨q, i, hd, aad, w1, hl, hi, h1, w2, h2, hS, hino, hfd⟩ | ⟨q, i, e, w1, hl, h1, ⟨w2, h2, hS⟩, hw⟩ | ⟨e, w1, h1, hS, hw⟩
  · rw [Prog.bind_ok (Prog.mapErr_ok h1), Prog.bind_ok (Prog.mapErr_ok h2)]
    simp only
    by_cases hv : hd.headerType.version = .v5
    · rw [if_neg (by rw [hv]; simp)]
      have hsh := Shrinks.rewind w.nextFd w2
      rcases rewind_spec w.nextFd w2 with ⟨w3, h3, hc⟩ | ⟨e, w3, h3, hc⟩
      · left
        rw [h3] at hsh
        refine ⟨q, i, hd, aad, w3, by rw [Prog.bind_ok (Prog.mapErr_ok h3)]; rfl, hS.trans (.core hc hsh), hl, hi, hv, ?_, ?_⟩
        · rw [World.fd_of_core hc]; simp [World.setPos, hino]
        · rw [World.nextFd_of_core hc]; exact hfd
      · right
        rw [h3] at hsh
        have hc' : w3.core = (w2.setPos w.nextFd (w2.fd w.nextFd).pos).core := by rw [World.setPos_self]; exact hc
        refine ⟨_, w3, by rw [Prog.bind_err (Prog.mapErr_err h3)], hS.trans (.core hc' hsh), fun h0 => ?_⟩
        have hs2 : w2.sched = [] := by have := hS.sched; rw [h0] at this; exact List.suffix_nil.1 this
        rw [rewind_nil hs2] at h3
        cases h3
    · right
      rw [if_pos (by revert hv; cases hd.headerType.version <;> decide)]
      refine ⟨_, w2, rfl, hS, fun _ q' i' hl' hd' aad' hi' => ?_⟩
      rw [← (LeadsToFile_unique hl hl').2] at hi'
      obtain ⟨rfl, rfl⟩ := isHeader_unique hi hi'
      exact ⟨hv, rfl⟩
  · right
    refine ⟨_, w2, by rw [Prog.bind_ok (Prog.mapErr_ok h1), Prog.bind_err (Prog.mapErr_err h2)], hS, fun h0 q' i' hl' hd' aad' hi' => ?_⟩
    rw [← (LeadsToFile_unique hl hl').2] at hi'
    rcases hw with hw | hw
    · exact absurd h0 hw
    · exact absurd hi' (hw _ _)
  · right
    refine ⟨_, w1, by rw [Prog.bind_err (Prog.mapErr_err h1)], hS, fun h0 q' i' hl' hd' aad' hi' => ?_⟩
    rcases hw with hw | hw
    · exact absurd h0 hw
    · exact absurd ⟨q', i', hl'⟩ hw

end Volaris.Cli
