import Verif.Proofs.PackCmd
import Verif.Proofs.KeyCmd
import Verif.Proofs.HeaderCmd
import Verif.Props.EndToEnd
import Verif.Spec.CmdRoundTrip
/-!
# Commands without faults succeed
-/
namespace Volaris.Cli
open Volaris.Spec
variable {σ : Type}

theorem consent_after {cwd : Path} {name : List Char} {force : ForceMode} {w u : World} (hs : w.sched = []) (h : AfterConsent force cwd name w u) : consent cwd name force w = (.ok (), u) := by
  rcases h with ⟨h, rfl⟩ | ⟨ho, rfl, rest, ha, rfl⟩
  · exact consent_nil h
  · unfold consent
    rcases getAnswer_cases (overwritePrompt name) true w with ⟨b, r, s, _, h2, h3, h4⟩ | ⟨e, r, s, o, _, _, _, h4⟩
    · obtain ⟨rfl, rfl⟩ := firstAnswer_unique h4 ha
      rw [hs] at h2
      have hs' := List.suffix_nil.1 h2
      subst hs'
      have : overwriteCheck cwd name .prompt w = (.ok true, answered w (overwriteQuestion name) r) := by
        rw [overwriteCheck_occupied .prompt ho, h3, ← hs, overwriteQuestion_eq]
        rfl
      rw [Prog.bind_ok this]
      rfl
    · exact absurd ⟨_, _, ha⟩ (h4 hs).2

theorem afterConsent_dir {cwd : Path} {name : List Char} {force : ForceMode} {w u : World} (h : AfterConsent force cwd name w u) : u.dir = w.dir ∧ u.file = w.file ∧ u.sched = w.sched ∧ u.nextIno = w.nextIno ∧ u.nextFd = w.nextFd := by
  rcases h with ⟨_, rfl⟩ | ⟨_, _, _, _, rfl⟩ <;> exact ⟨rfl, rfl, rfl, rfl, rfl⟩

theorem firstConfirmed_unique : ∀ {l : List Bytes} {x y : Bytes} {r r' : List Bytes}, FirstConfirmed l x r → FirstConfirmed l y r' → x = y ∧ r = r' := by
  intro l x y r r' h
  induction h generalizing y r' with
  | here hx =>
    intro h'
    cases h' with
    | here => exact ⟨rfl, rfl⟩
    | later h =>
      rcases h with h | h
      · exact absurd rfl h
      · exact absurd h hx
  | later hl _ ih =>
    intro h'
    cases h' with
    | here hx =>
      rcases hl with h | h
      · exact absurd rfl h
      · exact absurd h hx
    | later _ h => exact ih h

/-- Without faults a secret that the source supplies is obtained. -/
theorem getSecret_nil {words : List (List Char)} {cwd : Path} {state : PasswordState} {key : Key} {w : World} {x : Bytes} (hs : w.sched = []) (hx : x ≠ [])
    (h : Supplies words cwd state key w x) : ∃ w', getSecret words cwd key state w = (.ok x, w') := by
  suffices hf : ∃ w', fetch words cwd state key w = (.ok x, w') by
    obtain ⟨w', hf⟩ := hf
    refine ⟨w', ?_⟩
    unfold getSecret
    rw [Prog.bind_ok hf, if_neg hx]
    rfl
  cases key with
  | keyfile path =>
    unfold Supplies at h
    simp only at h
    show ∃ w', (if path = ['-'] then _ else readKeyfile (toPath cwd path)) w = _
    split at h
    · subst h
      rw [if_pos ‹_›]
      rcases readStdin_cases w with ⟨s, _, he⟩ | ⟨_, _, _, hn, _⟩
      · refine ⟨{ w with stdin := [], sched := s }, ?_⟩
        rw [Prog.bind_ok he, if_neg hx]
        rfl
      · exact absurd hs hn
    · rw [if_neg ‹_›]
      obtain ⟨q, i, hl, rfl⟩ := h
      unfold readKeyfile
      have hr := readToEnd_nil (w := w.opened i) hs w.nextFd
      rw [opened_rest] at hr
      refine ⟨(w.opened i).adv w.nextFd (w.file i).length, ?_⟩
      rw [Prog.bind_ok (Prog.mapErr_ok (openFile_nil hs hl)), Prog.bind_ok (Prog.mapErr_ok hr), if_neg hx]
      rfl
  | env =>
    refine ⟨w, ?_⟩
    show readEnv w = _
    unfold readEnv
    rw [show w.env = some x from h]
  | generate n =>
    obtain ⟨chosen, hlen, hch, rfl⟩ := h
    have hc : ∀ j : Nat, (j : Int) < n → supplied w j % (words.length + 1) ≠ words.length := by
      intro j hj e
      have hj' : j < chosen.length := by omega
      have := hch j hj'
      rw [e, List.getElem?_eq_none (Nat.le_refl _), List.getElem?_eq_getElem hj'] at this
      cases this
    obtain ⟨chosen', w1, he, hl, hch'⟩ := Props.C51_passphrase_partial (ε := Error) words n w hc
    have : chosen' = chosen := by
      apply List.ext_getElem?
      intro j
      by_cases hj : j < chosen.length
      · rw [hch j hj, (hch' j (by omega)).1]
      · rw [List.getElem?_eq_none (by omega), List.getElem?_eq_none (by omega)]
    subst this
    refine ⟨w1.said ("[-] Your generated passphrase is: ".toList ++ dashed chosen'), ?_⟩
    show (do let passphrase ← generatePassphrase words n; say ("[-] Your generated passphrase is: ".toList ++ passphrase); pure (stringBytes passphrase)) w = _
    rw [Prog.bind_ok he]
    rfl
  | user =>
    show ∃ w', getPassword state w = _
    unfold getPassword
    cases state with
    | direct =>
      obtain ⟨rest, ht⟩ : ∃ rest, w.tty = x :: rest := h
      rcases directPassword_cases w.tty w rfl with ⟨y, r, s, h1, h2, h3⟩ | ⟨s, h2, h3, h4⟩
      · rw [ht] at h1; cases h1
        exact ⟨_, h3⟩
      · rw [h4 hs] at ht; cases ht
    | validate =>
      obtain ⟨rest, hc⟩ : ∃ rest, FirstConfirmed w.tty x rest := h
      rcases confirmLoop_cases w.tty w rfl with ⟨y, r, s, o, _, h2, h3, h4⟩ | ⟨r, s, o, _, h2, h3, h4⟩
      · obtain ⟨rfl, _⟩ := firstConfirmed_unique h4 hc
        exact ⟨_, h3⟩
      · exact absurd ⟨x, rest, hc⟩ (h4 hs)

theorem hashIf_nil (s : Sys σ) (mode : HashMode) {file : List Char} {w : World} {q : Path} {i : Nat} (hs : w.sched = []) (hl : LeadsToFile w (toPath s.cwd file) q i) :
    ∃ w', hashIf s mode file w = (.ok (), w') := by
  cases mode with
  | noHash => exact ⟨w, rfl⟩
  | calculateHash =>
    rcases HashCmd.execute_cases s.H w.nextFd (w.opened i) with ⟨p, w2, he, _⟩ | ⟨_, _, _, hn, _⟩
    · refine ⟨w2.said ("[+] ".toList ++ file ++ ": ".toList ++ (s.H.finish (p.foldl s.H.write s.H.init)).toList), ?_⟩
      have : hashStream s [file] w = (.ok [s.H.finish (p.foldl s.H.write s.H.init)], w2.said ("[+] ".toList ++ file ++ ": ".toList ++ (s.H.finish (p.foldl s.H.write s.H.init)).toList)) := by
        unfold hashStream
        rw [Prog.bind_ok (Prog.mapErr_ok (openFile_nil hs hl)), Prog.bind_ok (Prog.mapErr_ok he)]
        rfl
      show (do let _ ← hashStream s [file]; pure ()) w = _
      rw [Prog.bind_ok this]
      rfl
    · exact absurd hs hn

/-- What erasing the file `i` at `q` leaves alone. -/
structure Sweeps (q : Path) (i : Nat) (w w' : World) : Prop where
  look : ∀ x, x ≠ q → w'.look x = w.look x
  files : ∀ j, j ≠ i → w'.file j = w.file j
  dirs : ∀ d, w.look d = some .dir → w'.look d = some .dir

theorem eraseIf_nil (s : Sys σ) (mode : EraseMode) (force : ForceMode) {file : List Char} {w : World} {q : Path} {i : Nat} (hs : w.sched = []) (hl : LeadsToFile w (toPath s.cwd file) q i) :
    ∃ w', eraseIf s mode force file w = (.ok (), w') ∧ Sweeps q i w w' ∧ w'.sched = [] := by
  cases mode with
  | ignoreFile => exact ⟨w, rfl, ⟨fun _ _ => rfl, fun _ _ => rfl, fun _ h => h⟩, hs⟩
  | eraseFile n =>
    have hsub := (secureErase_prunes s file n force w).sched
    rcases secureErase_file s file n force hl with ⟨_, _, _, hn⟩ | ⟨r, u, w', he, ⟨u1, u2, _⟩, hE, ⟨rfl, h1, h2⟩ | ⟨_, hn⟩⟩
    · exact absurd hs hn
    · refine ⟨w', he, ⟨fun x hx => by rw [hE.dir x hx, World.look_congr u2], fun j hj => by rw [hE.files j hj, u1], fun d hd => ?_⟩, ?_⟩
      · by_cases hdq : d = q
        · subst hdq
          rw [hl.look] at hd; cases hd
        · rw [hE.dir d hdq, World.look_congr u2]; exact hd
      · rw [he] at hsub
        rw [hs, List.suffix_nil] at hsub
        exact hsub
    · exact absurd hs hn


theorem canHold_congr {w w' : World} (hd : w'.dir = w.dir) {p : PathBuf} (h : CanHold w p) : CanHold w' p := by
  obtain ⟨q, h1, h2⟩ := h
  refine ⟨q, by rw [World.resolve_congr hd]; exact h1, ?_⟩
  rw [World.look_congr hd, World.look_congr hd]; exact h2

theorem occupied_congr {w w' : World} (hd : w'.dir = w.dir) {p : PathBuf} : Occupied w' p ↔ Occupied w p := by
  unfold Occupied
  constructor
  · rintro ⟨q, n, h1, h2⟩
    exact ⟨q, n, by rw [← World.resolve_congr hd]; exact h1, by rw [← World.look_congr hd]; exact h2⟩
  · rintro ⟨q, n, h1, h2⟩
    exact ⟨q, n, by rw [World.resolve_congr hd]; exact h1, by rw [World.look_congr hd]; exact h2⟩

theorem leads_congr {w w' : World} (hd : w'.dir = w.dir) {p : PathBuf} {q : Path} {i : Nat} (h : LeadsToFile w p q i) : LeadsToFile w' p q i :=
  ⟨by rw [World.resolve_congr hd]; exact h.resolve, by rw [World.look_congr hd]; exact h.look⟩

theorem encryptBody_embedded (s : Sys σ) (hC : s.C.Lawful) (params : CryptoParams) (a : Algorithm) (pi po : PathBuf) {hi ho i j : Nat} {secret : Bytes} {v : World} (hs : v.sched = [])
    (hfi : v.fd hi = { ino := i, pos := 0 }) (hfo : v.fd ho = { ino := j, pos := 0 }) (hij : i ≠ j) (hj : v.file j = [])
    (hp : PrimitivesWork s.C a params.hashingAlgorithm secret) (hlim : (v.file i).length / 2 ^ 20 ≤ s.C.ctrMax) :
    ∃ v', encryptBody s params a (.file pi hi) (.file po ho) none secret v = (.ok (), v') ∧ Touches [hi] [ho] v v' ∧ v'.sched = [] ∧ DecryptsTo s.C secret (v'.file j) (v.file i) := by
  have hne : hi ≠ ho := by
    rintro rfl
    rw [hfi] at hfo
    injection hfo with hfo
    exact hij hfo
  obtain ⟨v', he, ht, hd⟩ := Props.C14_encrypt_decrypt s.C hC (encryptRequest params a hi ho none secret) v rfl rfl rfl hne (by
    show (v.fd hi).ino ≠ (v.fd ho).ino
    rw [hfi, hfo]; exact hij) hs hp (by
    show (v.file (v.fd hi).ino).length / _ ≤ _
    rw [hfi]; exact hlim) (by
    show (v.file (v.fd ho).ino).length ≤ _
    rw [hfo]
    simp only [hj]
    exact Nat.zero_le _)
  have hs' : v'.sched = [] := by
    have := Shrinks.encrypt s.C (encryptRequest params a hi ho none secret) v
    rw [he, hs] at this
    exact List.suffix_nil.1 this
  unfold encryptRequest at he
  refine ⟨v', ?_, ht, hs', ?_⟩
  · unfold encryptBody
    rw [Prog.bind_ok (streamOf_file _ _ v), Prog.bind_ok (streamOf_file _ _ v), Prog.bind_ok (Prog.mapErr_ok he), Prog.bind_ok (show flushOpt none v' = (.ok (), v') from rfl)]
    exact flushFile_nil hs' _ _
  · have hd : DecryptsTo s.C secret (v'.file (v.fd ho).ino) (v.file (v.fd hi).ino) := hd
    rw [hfi, hfo] at hd
    exact hd

theorem encryptBody_detached (s : Sys σ) (hC : s.C.Lawful) (params : CryptoParams) (a : Algorithm) (pi po ph : PathBuf) {hi ho hh i j k : Nat} {secret : Bytes} {v : World} (hs : v.sched = [])
    (hfi : v.fd hi = { ino := i, pos := 0 }) (hfo : v.fd ho = { ino := j, pos := 0 }) (hfh : v.fd hh = { ino := k, pos := 0 }) (hij : i ≠ j) (hik : i ≠ k) (hkj : k ≠ j) (hj : v.file j = [])
    (hk : v.file k = []) (hp : PrimitivesWork s.C a params.hashingAlgorithm secret) (hlim : (v.file i).length / 2 ^ 20 ≤ s.C.ctrMax) :
    ∃ v', encryptBody s params a (.file pi hi) (.file po ho) (some (.file ph hh)) secret v = (.ok (), v') ∧ Touches [hi] [hh, ho] v v' ∧ v'.sched = [] ∧
      ((∃ b ∈ (v'.file j).take (v'.file k).length, b ≠ 0) → DetachedDecryptsTo s.C secret (v'.file k) (v'.file j) (v.file i)) := by
  have apart : ∀ {a b : Nat} {x y : Nat}, v.fd a = { ino := x, pos := 0 } → v.fd b = { ino := y, pos := 0 } → x ≠ y → a ≠ b := by
    rintro a _ x y h1 h2 h rfl
    rw [h1] at h2
    injection h2 with h2
    exact h h2
  obtain ⟨v', he, ht, _, _, _, hd, _⟩ := Props.C15_detached s.C hC (encryptRequest params a hi ho (some (.file ph hh)) secret) v hh (.inl rfl) rfl rfl (apart hfi hfo hij) (apart hfh hfo hkj)
    (by show (v.fd hi).ino ≠ (v.fd ho).ino; rw [hfi, hfo]; exact hij) (by show (v.fd hi).ino ≠ (v.fd hh).ino; rw [hfi, hfh]; exact hik)
    (by show (v.fd hh).ino ≠ (v.fd ho).ino; rw [hfh, hfo]; exact hkj) hs hp
    (by show (v.file (v.fd hi).ino).length / _ ≤ _; rw [hfi]; exact hlim)
    (by show v.file (v.fd ho).ino = []; rw [hfo]; exact hj) (by show v.file (v.fd hh).ino = []; rw [hfh]; exact hk)
  have hs' : v'.sched = [] := by
    have := Shrinks.encrypt s.C (encryptRequest params a hi ho (some (.file ph hh)) secret) v
    rw [he, hs] at this
    exact List.suffix_nil.1 this
  unfold encryptRequest at he
  refine ⟨v', ?_, ht, hs', ?_⟩
  · unfold encryptBody
    rw [Prog.bind_ok (streamOf_file _ _ v), Prog.bind_ok (streamOf_file _ _ v), Prog.bind_ok (Prog.mapErr_ok he),
      Prog.bind_ok (show flushOpt (some (.file ph hh)) v' = (.ok (), v') from flushFile_nil hs' _ _)]
    exact flushFile_nil hs' _ _
  · have hd : (∃ b ∈ (v'.file (v.fd ho).ino).take (v'.file (v.fd hh).ino).length, b ≠ 0) →
      DetachedDecryptsTo s.C secret (v'.file (v.fd hh).ino) (v'.file (v.fd ho).ino) (v.file (v.fd hi).ino) := hd
    rw [hfi, hfo, hfh] at hd
    exact hd

/-- A file whose place and number differ from what was erased is still there. -/
theorem Sweeps.leads {q : Path} {i : Nat} {w w' : World} (h : Sweeps q i w w') {p : PathBuf} {x : Path} {j : Nat} (hl : LeadsToFile w p x j) (hx : x ≠ q) : LeadsToFile w' p x j :=
  ⟨World.resolve_mono h.dirs hl.resolve, by rw [h.look x hx]; exact hl.look⟩


/-- An output that is apart from the file `i` at `q` is opened: it is another file at another place. -/
theorem Opened.apart {p p' : PathBuf} {q q' : Path} {i j h : Nat} {w w' : World} (o : Opened p' q' j h w w') (hl : LeadsToFile w p q i) (ha : Allocated w) (hap : Apart w p p') : q ≠ q' ∧ i ≠ j := by
  refine ⟨?_, ?_⟩
  · rintro rfl
    exact hap.1 q hl.resolve o.resolve
  · rintro rfl
    rcases o.was with ⟨_, h2, _⟩ | ⟨h1, _⟩
    · have := ha _ _ hl.look
      omega
    · exact hap.2 q q' i hl ⟨o.resolve, h1⟩

theorem Opened.sched_nil {p : PathBuf} {q : Path} {j h : Nat} {w w' : World} (o : Opened p q j h w w') (hs : w.sched = []) : w'.sched = [] := by
  have := o.sched
  rw [hs] at this
  exact List.suffix_nil.1 this

theorem apart_congr {w w' : World} (hd : w'.dir = w.dir) {p p' : PathBuf} (h : Apart w p p') : Apart w' p p' := by
  refine ⟨fun q h1 h2 => h.1 q (by rw [← World.resolve_congr hd]; exact h1) (by rw [← World.resolve_congr hd]; exact h2), fun q q' i h1 h2 => h.2 q q' i ?_ ?_⟩
  · exact leads_congr (w := w') hd.symm h1
  · exact leads_congr (w := w') hd.symm h2

/-- After another path was opened, what is apart from it can be written to as before. -/
theorem Opened.canHold {p p' : PathBuf} {q : Path} {j h : Nat} {w w' : World} (o : Opened p q j h w w') (hc : CanHold w p') : CanHold w' p' := by
  obtain ⟨x, h1, h2⟩ := hc
  refine ⟨x, (o.resolves p' x).2 h1, ?_⟩
  by_cases hx : x = q
  · subst hx
    exact .inl ⟨j, o.now⟩
  · rw [o.others x hx]
    refine h2.imp_right fun h => ⟨h.1, (o.dirs _).2 h.2⟩

theorem Opened.free {p p' : PathBuf} {q : Path} {j h : Nat} {w w' : World} (o : Opened p q j h w w') (hap : Apart w p p') (hn : ¬ Occupied w p') : ¬ Occupied w' p' := by
  rintro ⟨x, n, h1, h2⟩
  have h1 := (o.resolves p' x).1 h1
  have hx : x ≠ q := by
    rintro rfl
    exact hap.1 x o.resolve h1
  rw [o.others x hx] at h2
  exact hn ⟨x, n, h1, h2⟩

/-- What is apart from what was opened is still apart. -/
theorem Opened.others_apart {p a b : PathBuf} {q : Path} {j h : Nat} {w w' : World} (o : Opened p q j h w w') (hab : Apart w a b) (ha : ∀ x, w.resolve a = .ok x → x ≠ q)
    (hb : ∀ x, w.resolve b = .ok x → x ≠ q) : Apart w' a b := by
  refine ⟨fun x h1 h2 => hab.1 x ((o.resolves _ _).1 h1) ((o.resolves _ _).1 h2), fun x y n h1 h2 => ?_⟩
  have r1 := (o.resolves _ _).1 h1.resolve
  have r2 := (o.resolves _ _).1 h2.resolve
  have l1 := h1.look
  have l2 := h2.look
  rw [o.others x (ha x r1)] at l1
  rw [o.others y (hb y r2)] at l2
  exact hab.2 x y n ⟨r1, l1⟩ ⟨r2, l2⟩

theorem Opened.self_apart {p b : PathBuf} {q : Path} {j h : Nat} {w w' : World} (o : Opened p q j h w w') (hal : Allocated w) (hpb : Apart w p b) : Apart w' p b := by
  refine ⟨fun x h1 h2 => hpb.1 x ((o.resolves _ _).1 h1) ((o.resolves _ _).1 h2), fun x y n h1 h2 => ?_⟩
  have r1 := (o.resolves _ _).1 h1.resolve
  have r2 := (o.resolves _ _).1 h2.resolve
  rw [o.resolve] at r1; cases r1
  have l1 := h1.look
  have l2 := h2.look
  rw [o.now] at l1; cases l1
  have hy : y ≠ q := by
    rintro rfl
    exact hpb.1 y o.resolve r2
  rw [o.others y hy] at l2
  rcases o.was with ⟨_, h3, _⟩ | ⟨h3, _⟩
  · have := hal _ _ l2
    omega
  · exact hpb.2 q y j ⟨o.resolve, h3⟩ ⟨r2, l2⟩

/-- Hashing one file and erasing another one. -/
theorem finish_nil (s : Sys σ) (params : CryptoParams) (file input : List Char) {v : World} {qo q : Path} {j i : Nat} (hv : v.sched = []) (h1 : LeadsToFile v (toPath s.cwd file) qo j)
    (h2 : LeadsToFile v (toPath s.cwd input) q i) :
    ∃ v', (do hashIf s params.hashMode file; eraseIf s params.erase params.force input) v = (.ok (), v') ∧ ∃ v1, v1.file = v.file ∧ v1.dir = v.dir ∧ Sweeps q i v1 v' := by
  obtain ⟨v1, e⟩ := hashIf_nil s params.hashMode hv h1
  have l := (hashIf_looks s v.nextFd params.hashMode file v (Nat.le_refl _)).1
  rw [e] at l
  replace l : Looked v.nextFd v v1 := l
  have hv1 : v1.sched = [] := by
    have := l.sched
    rw [hv] at this
    exact List.suffix_nil.1 this
  obtain ⟨v2, e', h3, _⟩ := eraseIf_nil s params.erase params.force hv1 (leads_congr l.dir h2)
  exact ⟨v2, by rw [Prog.bind_ok e]; exact e', v1, l.file, l.dir, h3⟩

theorem encryptMode_nil (s : Sys σ) (hC : s.C.Lawful) (input output : List Char) (params : CryptoParams) (a : Algorithm) (secret : Bytes) {w u : World} {q : Path} {i : Nat} (hs : w.sched = [])
    (hne : input ≠ output) (hin : LeadsToFile w (toPath s.cwd input) q i) (hac : AfterConsent params.force s.cwd output w u) (hx : secret ≠ [])
    (hsup : Supplies s.words s.cwd .validate params.key u secret) (hout : CanHold w (toPath s.cwd output)) (hhdr : ∀ hd, params.header = some hd → FreelyWritable params.force w (toPath s.cwd hd))
    (hsep : Separate s.cwd input output params.header w) (hp : PrimitivesWork s.C a params.hashingAlgorithm secret) (hlim : (w.file i).length / 2 ^ 20 ≤ s.C.ctrMax) :
    ∃ w', encryptMode s input output params a w = (.ok (), w') ∧ Spec.Encrypted s.C s.cwd output params.header secret (w.file i) w' := by
  obtain ⟨ud, uf, us, ui, _⟩ := afterConsent_dir hac
  have hus : u.sched = [] := by rw [us]; exact hs
  have e1 := consent_after hs hac
  have e2 := readInput_nil hus (leads_congr ud hin)
  obtain ⟨w3, e3⟩ := getSecret_nil (w := u.opened i) hus hx (Supplies.congr (w := u) rfl rfl rfl rfl rfl rfl hsup)
  have l3 := (getSecret_looks (u.opened i).nextFd s.words s.cwd params.key .validate (u.opened i) (Nat.le_refl _)).1
  rw [e3] at l3
  replace l3 : Looked (u.opened i).nextFd (u.opened i) w3 := l3
  have hs3 : w3.sched = [] := by
    have := l3.sched
    rw [show (u.opened i).sched = [] from hus] at this
    exact List.suffix_nil.1 this
  have hd3 : w3.dir = w.dir := l3.dir.trans ud
  have hf3 : w3.file = w.file := l3.file.trans uf
  have hn3 : w3.nextIno = w.nextIno := l3.nextIno.trans ui
  have hfd3 : w3.fd u.nextFd = { ino := i, pos := 0 } := by
    rw [l3.fds _ (Nat.lt_succ_self _)]; exact opened_fd u i
  have hlt3 : u.nextFd < w3.nextFd := Nat.lt_of_lt_of_le (Nat.lt_succ_self _) l3.nextFd
  have hal3 : Allocated w3 := fun x k hk => by
    rw [hn3]; rw [World.look_congr hd3] at hk; exact hsep.allocated x k hk
  have hin3 := leads_congr hd3 hin
  obtain ⟨qo, j, w4, e4, o4⟩ := openOutput_nil hs3 (canHold_congr hd3 hout)
  have hs4 := o4.sched_nil hs3
  have hap4 := Opened.apart o4 hin3 hal3 (apart_congr hd3 hsep.out)
  have hfd4 : w4.fd u.nextFd = { ino := i, pos := 0 } := by rw [o4.fds _ (Nat.ne_of_lt hlt3)]; exact hfd3
  have hfi4 : w4.file i = w.file i := by rw [o4.files i hap4.2, hf3]
  have hal4 := Opened.allocated o4 hal3
  have hout4 : LeadsToFile w4 (toPath s.cwd output) qo j := ⟨(o4.resolves _ _).2 o4.resolve, o4.now⟩
  have hin4 := o4.leads hin3
  unfold encryptMode
  rw [if_neg hne, Prog.bind_ok e1, Prog.bind_ok e2, Prog.bind_ok e3, Prog.bind_ok e4]
  cases hh : params.header with
  | none =>
    obtain ⟨v', e5, ht, hs5, hdec⟩ := encryptBody_embedded s hC params a (toPath s.cwd input) (toPath s.cwd output) hs4 hfd4 o4.handle hap4.2 o4.empty hp (by rw [hfi4]; exact hlim)
    obtain ⟨v2, e6, v1, f1, d1, h3⟩ := finish_nil s params output input hs5 (leads_congr ht.dir hout4) (leads_congr ht.dir hin4)
    refine ⟨v2, ?_, ?_⟩
    · rw [Prog.bind_ok (show openHeader s params.force none w4 = (.ok none, w4) from rfl), Prog.bind_ok e5]
      exact e6
    · refine ⟨v'.file j, ⟨qo, j, h3.leads (leads_congr (d1.trans ht.dir) hout4) (Ne.symm hap4.1), ?_⟩, ?_⟩
      · rw [h3.files j (Ne.symm hap4.2), f1]
      · rw [hfi4] at hdec; exact hdec
  | some hd =>
    obtain ⟨hch, hfree⟩ := hhdr hd hh
    obtain ⟨hap1, hap2⟩ := hsep.hdr hd hh
    have hch3 := canHold_congr hd3 hch
    have e5 : consent s.cwd hd params.force w4 = (.ok (), w4) :=
      consent_nil (hfree.imp_left fun h => Opened.free o4 (apart_congr hd3 hap2) fun ho => h ((occupied_congr hd3).1 ho))
    obtain ⟨qh, k, w5, e6, o5⟩ := openOutput_nil hs4 (Opened.canHold o4 hch3)
    have hs5 := o5.sched_nil hs4
    have hapi : Apart w4 (toPath s.cwd input) (toPath s.cwd hd) := Opened.others_apart o4 (apart_congr hd3 hap1)
      (fun x h1 hx => (apart_congr hd3 hsep.out).1 x h1 (hx ▸ o4.resolve)) (fun x h1 hx => (apart_congr hd3 hap2).1 x (hx ▸ o4.resolve) h1)
    have hapo : Apart w4 (toPath s.cwd output) (toPath s.cwd hd) := Opened.self_apart o4 hal3 (apart_congr hd3 hap2)
    have hap5 := Opened.apart o5 hin4 hal4 hapi
    have hap6 := Opened.apart o5 hout4 hal4 hapo
    have hne5 : u.nextFd ≠ w4.nextFd := by rw [o4.nextFd]; omega
    have hfd5 : w5.fd u.nextFd = { ino := i, pos := 0 } := by rw [o5.fds _ hne5]; exact hfd4
    have hfo5 : w5.fd w3.nextFd = { ino := j, pos := 0 } := by rw [o5.fds _ (by rw [o4.nextFd]; omega)]; exact o4.handle
    have hfi5 : w5.file i = w.file i := by rw [o5.files i hap5.2, hfi4]
    have hfj5 : w5.file j = [] := by rw [o5.files j hap6.2]; exact o4.empty
    obtain ⟨v', e7, ht, hs7, hdec⟩ := encryptBody_detached s hC params a (toPath s.cwd input) (toPath s.cwd output) (toPath s.cwd hd) hs5 hfd5 hfo5 o5.handle hap4.2 hap5.2 (Ne.symm hap6.2) hfj5 o5.empty hp
      (by rw [hfi5]; exact hlim)
    have hout5 := o5.leads hout4
    have hhd5 : LeadsToFile w5 (toPath s.cwd hd) qh k := ⟨(o5.resolves _ _).2 o5.resolve, o5.now⟩
    obtain ⟨v2, e8, v1, f1, d1, h3⟩ := finish_nil s params output input hs7 (leads_congr ht.dir hout5) (leads_congr ht.dir (o5.leads hin4))
    refine ⟨v2, ?_, ?_⟩
    · have : openHeader s params.force (some hd) w4 = (.ok (some (.file (toPath s.cwd hd) w4.nextFd)), w5) := by
        show (do consent s.cwd hd params.force; let e ← openOutput (toPath s.cwd hd); pure (some e)) w4 = _
        rw [Prog.bind_ok e5, Prog.bind_ok e6]; rfl
      rw [Prog.bind_ok this, Prog.bind_ok e7]
      exact e8
    · refine ⟨v'.file k, v'.file j, ⟨qh, k, h3.leads (leads_congr (d1.trans ht.dir) hhd5) (Ne.symm hap5.1), ?_⟩, ⟨qo, j, h3.leads (leads_congr (d1.trans ht.dir) hout5) (Ne.symm hap4.1), ?_⟩, ?_⟩
      · rw [h3.files k (Ne.symm hap5.2), f1]
      · rw [h3.files j (Ne.symm hap4.2), f1]
      · rw [hfi5] at hdec; exact hdec

/-- Decrypting and flushing. -/
theorem decryptBody_nil (s : Sys σ) (pi po : PathBuf) (header : Option Storage.Entry) {hi ho i j : Nat} {secret p : Bytes} {v : World} (hs : v.sched = [])
    (hfi : v.fd hi = { ino := i, pos := 0 }) (hfo : v.fd ho = { ino := j, pos := 0 }) (hij : i ≠ j) (hj : v.file j = [])
    (hdec : header = none ∧ DecryptsTo s.C secret (v.file i) p ∨
      ∃ ph hh k, header = some (.file ph hh) ∧ v.fd hh = { ino := k, pos := 0 } ∧ hh ≠ hi ∧ hh ≠ ho ∧ DetachedDecryptsTo s.C secret (v.file k) (v.file i) p) :
    ∃ v' R, decryptBody s (.file pi hi) (.file po ho) header secret v = (.ok (), v') ∧ Touches R [ho] v v' ∧ v'.sched = [] ∧ v'.file j = p := by
  have hne : hi ≠ ho := by
    rintro rfl
    rw [hfi] at hfo
    injection hfo with hfo
    exact hij hfo
  have hino : (v.fd hi).ino ≠ (v.fd ho).ino := by rw [hfi, hfo]; exact hij
  obtain ⟨v', R, he, hw, ht⟩ : ∃ v' R, Decrypt.execute s.C { headerReader := optStream header, reader := hi, writer := ho, rawKey := secret } v = (.ok (), v') ∧ Wrote ho v v' p ∧ Touches R [ho] v v' := by
    rcases hdec with ⟨rfl, hd⟩ | ⟨ph, hh, k, rfl, hfh, h1, h2, hd⟩
    · obtain ⟨v', h⟩ := hd { headerReader := none, reader := hi, writer := ho, rawKey := secret } v ⟨rfl, rfl, hne, hino, by simp [World.rest, World.data, hfi]⟩ hs
      exact ⟨v', _, h⟩
    · obtain ⟨v', h⟩ := hd { headerReader := some hh, reader := hi, writer := ho, rawKey := secret } v hh
        ⟨rfl, rfl, ⟨h1, h2⟩, hne, hino, by rw [hfi], by simp [World.data, hfi], by simp [World.rest, World.data, hfh]⟩ hs
      exact ⟨v', _, h⟩
  have hs' : v'.sched = [] := by
    have := Shrinks.decrypt s.C { headerReader := optStream header, reader := hi, writer := ho, rawKey := secret } v
    rw [he, hs] at this
    exact List.suffix_nil.1 this
  refine ⟨v', R, ?_, ht, hs', ?_⟩
  · unfold decryptBody
    rw [Prog.bind_ok (streamOf_file _ _ v), Prog.bind_ok (streamOf_file _ _ v), Prog.bind_ok (Prog.mapErr_ok he)]
    exact flushFile_nil hs' _ _
  · have := hw.content
    rw [hfo] at this
    simp only [hj] at this
    rw [this]
    simp [writeAt]

theorem decryptMode_nil (s : Sys σ) (input output : List Char) (params : CryptoParams) (secret p : Bytes) {w u : World} {q : Path} {i : Nat} (hs : w.sched = [])
    (hne : input ≠ output) (hin : LeadsToFile w (toPath s.cwd input) q i) (hac : AfterConsent params.force s.cwd output w u) (hx : secret ≠ [])
    (hsup : Supplies s.words s.cwd .direct params.key u secret) (hout : CanHold w (toPath s.cwd output))
    (hsep : OutputApart s.cwd input output params.header w) (hun : Unlocks s.C s.cwd params.header secret (w.file i) p w) :
    ∃ w', decryptMode s input output params w = (.ok (), w') ∧ ContentAt w' (toPath s.cwd output) p := by
  obtain ⟨ud, uf, us, ui, _⟩ := afterConsent_dir hac
  have hus : u.sched = [] := by rw [us]; exact hs
  have e1 := consent_after hs hac
  have e2 := readInput_nil hus (leads_congr ud hin)
  -- the header file
  obtain ⟨hf, w2, e2', l2, hsup2, hf2⟩ : ∃ hf w2, readHeader s params.header (u.opened i) = (.ok hf, w2) ∧ Looked (u.nextFd + 1) (u.opened i) w2 ∧ Supplies s.words s.cwd .direct params.key w2 secret ∧
      (hf = none ∧ DecryptsTo s.C secret (w.file i) p ∨ ∃ qh ph hd hh k, hf = some (.file ph hh) ∧ params.header = some hd ∧ w2.fd hh = { ino := k, pos := 0 } ∧ u.nextFd < hh ∧ hh < w2.nextFd ∧
        LeadsToFile w (toPath s.cwd hd) qh k ∧ DetachedDecryptsTo s.C secret (w.file k) (w.file i) p) := by
    cases hh : params.header with
    | none =>
      rw [hh] at hun
      exact ⟨none, u.opened i, rfl, .refl _ _, Supplies.congr (w := u) rfl rfl rfl rfl rfl rfl hsup, .inl ⟨rfl, hun⟩⟩
    | some hd =>
      rw [hh] at hun
      obtain ⟨_, ⟨qh, k, hl, rfl⟩, hdd⟩ := hun
      have e := readInput_nil (w := u.opened i) hus (leads_congr (w' := u.opened i) ud hl)
      refine ⟨some (.file (toPath s.cwd hd) (u.opened i).nextFd), (u.opened i).opened k, ?_, ?_, Supplies.congr (w := u) rfl rfl rfl rfl rfl rfl hsup,
        .inr ⟨qh, _, hd, _, k, rfl, rfl, opened_fd _ k, Nat.lt_succ_self _, Nat.lt_succ_self _, hl, hdd⟩⟩
      · show (do let e ← readInput (toPath s.cwd hd); pure (some e)) (u.opened i) = _
        rw [Prog.bind_ok e]; rfl
      · have := (readInput_looks (u.nextFd + 1) (toPath s.cwd hd) (u.opened i) (Nat.le_refl _)).1
        rw [e] at this
        exact this
  have hs2 : w2.sched = [] := by
    have := l2.sched
    rw [show (u.opened i).sched = [] from hus] at this
    exact List.suffix_nil.1 this
  obtain ⟨w3, e3⟩ := getSecret_nil hs2 hx hsup2
  have l3 := (getSecret_looks w2.nextFd s.words s.cwd params.key .direct w2 (Nat.le_refl _)).1
  rw [e3] at l3
  replace l3 : Looked w2.nextFd w2 w3 := l3
  have hs3 : w3.sched = [] := by
    have := l3.sched
    rw [hs2] at this
    exact List.suffix_nil.1 this
  have hd3 : w3.dir = w.dir := l3.dir.trans (l2.dir.trans ud)
  have hf3 : w3.file = w.file := l3.file.trans (l2.file.trans uf)
  have hn3 : w3.nextIno = w.nextIno := l3.nextIno.trans (l2.nextIno.trans ui)
  have hlt2 : u.nextFd < w2.nextFd := Nat.lt_of_lt_of_le (Nat.lt_succ_self _) l2.nextFd
  have hfd3 : w3.fd u.nextFd = { ino := i, pos := 0 } := by
    rw [l3.fds _ hlt2, l2.fds _ (Nat.lt_succ_self _)]; exact opened_fd u i
  have hlt3 : u.nextFd < w3.nextFd := Nat.lt_of_lt_of_le hlt2 l3.nextFd
  have hal3 : Allocated w3 := fun x k hk => by
    rw [hn3]; rw [World.look_congr hd3] at hk; exact hsep.allocated x k hk
  have hin3 := leads_congr hd3 hin
  obtain ⟨qo, j, w4, e4, o4⟩ := openOutput_nil hs3 (canHold_congr hd3 hout)
  have hs4 := o4.sched_nil hs3
  have hap4 := Opened.apart o4 hin3 hal3 (apart_congr hd3 hsep.inp)
  have hfd4 : w4.fd u.nextFd = { ino := i, pos := 0 } := by rw [o4.fds _ (Nat.ne_of_lt hlt3)]; exact hfd3
  have hfi4 : w4.file i = w.file i := by rw [o4.files i hap4.2, hf3]
  have hout4 : LeadsToFile w4 (toPath s.cwd output) qo j := ⟨(o4.resolves _ _).2 o4.resolve, o4.now⟩
  have hin4 := o4.leads hin3
  obtain ⟨v', R, e5, ht, hs5, hcont⟩ := decryptBody_nil s (toPath s.cwd input) (toPath s.cwd output) hf (secret := secret) (p := p) hs4 hfd4 o4.handle hap4.2 o4.empty (by
    rcases hf2 with ⟨rfl, hd⟩ | ⟨qh, ph, hd, hh, k, rfl, hhd, hfh, hgt, hlt, hl, hdd⟩
    · left; rw [hfi4]; exact ⟨rfl, hd⟩
    · right
      have hlt' : hh < w3.nextFd := Nat.lt_of_lt_of_le hlt l3.nextFd
      have hapk := Opened.apart o4 (leads_congr hd3 hl) hal3 (apart_congr hd3 (hsep.hdr hd hhd))
      refine ⟨ph, hh, k, rfl, ?_, Nat.ne_of_gt hgt, Nat.ne_of_lt hlt', ?_⟩
      · rw [o4.fds _ (Nat.ne_of_lt hlt'), l3.fds _ hlt]; exact hfh
      · rw [hfi4, o4.files k hapk.2, hf3]; exact hdd)
  obtain ⟨v2, e6, v1, f1, d1, h3⟩ := finish_nil s params input input hs5 (leads_congr ht.dir hin4) (leads_congr ht.dir hin4)
  refine ⟨v2, ?_, qo, j, h3.leads (leads_congr (d1.trans ht.dir) hout4) (Ne.symm hap4.1), ?_⟩
  · unfold decryptMode
    rw [if_neg hne, Prog.bind_ok e1, Prog.bind_ok e2, Prog.bind_ok e2', Prog.bind_ok e3, Prog.bind_ok e4, Prog.bind_ok e5]
    exact e6
  · rw [h3.files j (Ne.symm hap4.2), f1]; exact hcont

end Volaris.Cli
