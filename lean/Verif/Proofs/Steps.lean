import Verif.Model.Cli.Steps
import Verif.Proofs.Thread
import Verif.Proofs.Erase
/-!
# The steps of a command, run one after the other, are the command
-/
namespace Volaris.Cli.Steps
variable {σ : Type} {ε ε' α β : Type}

theorem run_done (r : Res ε α) : (Thr.done r).run = Prog.lift r := rfl

theorem run_ite {c : Prop} [Decidable c] (t u : Thr ε α) : (if c then t else u).run = if c then t.run else u.run := by split <;> rfl

theorem throw_eq (e : ε) : (Prog.throw e : Prog ε α) = Prog.lift (.err e) := rfl

theorem orElse_run (x : Prog ε α) (y : Thr ε α) : (orElse x y).run = Unpack.orElse x y.run := by
  unfold orElse
  rw [Thr.run_bind, Thr.run_atom]
  funext w
  unfold Unpack.orElse
  show Prog.bind _ _ w = _
  unfold Prog.bind Prog.attempt
  rcases x w with ⟨r, w'⟩
  cases r <;> rfl

theorem readFile_run (p : PathBuf) : (readFile p).run = Storage.readFile p := by
  unfold readFile Storage.readFile
  rw [Thr.run_bind, Thr.run_atom]
  congr 1; funext b
  cases b
  · show (Thr.run (_ >>= _)) = _
    rw [Thr.run_bind]; rfl
  · rfl

theorem flushFile_run (e : Storage.Entry) : (flushFile e).run = Storage.flushFile e := by
  unfold flushFile Storage.flushFile; rw [Thr.run_bind]; rfl

theorem openOutput_run (p : PathBuf) : (openOutput p).run = Cli.openOutput p := by
  unfold openOutput Cli.openOutput; rw [Thr.run_mapErr, orElse_run]; rfl

theorem readInput_run (p : PathBuf) : (readInput p).run = Cli.readInput p := by
  unfold readInput Cli.readInput; rw [Thr.run_mapErr, readFile_run]

theorem overwriteCheck_run (cwd : Path) (name : List Char) (force : ForceMode) : (overwriteCheck cwd name force).run = Cli.overwriteCheck cwd name force := by
  unfold overwriteCheck Cli.overwriteCheck; rw [Thr.run_bind, Thr.run_atom]; congr 1; funext b; cases b <;> rfl

theorem consent_run (cwd : Path) (name : List Char) (force : ForceMode) : (consent cwd name force).run = Cli.consent cwd name force := by
  unfold consent Cli.consent; rw [Thr.run_bind, overwriteCheck_run]; congr 1; funext b; cases b <;> rfl

theorem openHeader_run (s : Sys σ) (force : ForceMode) (o : Option (List Char)) : (openHeader s force o).run = Cli.openHeader s force o := by
  cases o with
  | none => rfl
  | some path =>
    unfold openHeader Cli.openHeader
    rw [Thr.run_bind, consent_run]; congr 1; funext _
    rw [Thr.run_bind, openOutput_run]; rfl

theorem readHeader_run (s : Sys σ) (o : Option (List Char)) : (readHeader s o).run = Cli.readHeader s o := by
  cases o with
  | none => rfl
  | some path => unfold readHeader Cli.readHeader; rw [Thr.run_bind, readInput_run]; rfl

theorem flushOpt_run (o : Option Storage.Entry) : (flushOpt o).run = Cli.flushOpt o := by
  cases o with
  | none => rfl
  | some e => unfold flushOpt Cli.flushOpt; rw [Thr.run_mapErr, flushFile_run]

theorem readKeyfile_run (p : PathBuf) : (readKeyfile p).run = Cli.readKeyfile p := by
  unfold readKeyfile Cli.readKeyfile
  rw [Thr.run_bind, Thr.run_atom]; congr 1; funext h
  rw [Thr.run_bind, Thr.run_atom]; congr 1; funext b
  rw [run_ite]; rfl

theorem fetch_run (words : List (List Char)) (cwd : Path) (state : PasswordState) (k : Key) : (fetch words cwd state k).run = Cli.fetch words cwd state k := by
  cases k with
  | keyfile path =>
    unfold fetch
    rw [run_ite, Thr.run_atom, readKeyfile_run]
    by_cases h : path = ['-']
    · rw [if_pos h, h]
    · rw [if_neg h]; unfold Cli.fetch; simp only []; rw [if_neg h]
  | env => rfl
  | generate i => rfl
  | user => rfl

theorem getSecret_run (words : List (List Char)) (cwd : Path) (key : Key) (state : PasswordState) : (getSecret words cwd key state).run = Cli.getSecret words cwd key state := by
  unfold getSecret Cli.getSecret
  rw [Thr.run_bind, fetch_run]; congr 1; funext b; rw [run_ite]; rfl

theorem hashLoop_run (H : HashCmd.Hasher σ) (h : Nat) : ∀ (fuel : Nat) (st : σ), (hashLoop H h fuel st).run = HashCmd.loop H h fuel st := by
  intro fuel
  induction fuel with
  | zero =>
    intro st; unfold hashLoop HashCmd.loop
    rw [Thr.run_bind, Thr.run_atom]; congr 1; funext b; rw [run_ite]; rfl
  | succ n ih =>
    intro st; unfold hashLoop HashCmd.loop
    rw [Thr.run_bind, Thr.run_atom]; congr 1; funext b; simp only [run_ite]; rw [ih]; rfl

theorem hashExecute_run (H : HashCmd.Hasher σ) (h : Nat) : (hashExecute H h).run = HashCmd.execute H h := by
  unfold hashExecute HashCmd.execute
  rw [Thr.run_bind, Thr.run_atom]; congr 1; funext _
  rw [Thr.run_bind]
  funext w
  rw [Prog.bind_ok (show (Thr.atom (ε := HashCmd.Error) fun w => (.ok (w.data h).length, w)).run w = (.ok (w.data h).length, w) from rfl), Thr.run_bind, hashLoop_run]
  rfl

theorem hashStream_run (s : Sys σ) : ∀ files, (hashStream s files).run = Cli.hashStream s files
  | [] => rfl
  | f :: fs => by
    unfold hashStream Cli.hashStream
    rw [Thr.run_bind, Thr.run_atom]; congr 1; funext h
    rw [Thr.run_bind, Thr.run_mapErr, hashExecute_run]; congr 1; funext d
    rw [Thr.run_bind, Thr.run_atom]; congr 1; funext _
    rw [Thr.run_bind, hashStream_run s fs]; rfl

theorem hashIf_run (s : Sys σ) (mode : HashMode) (file : List Char) : (hashIf s mode file).run = Cli.hashIf s mode file := by
  cases mode with
  | calculateHash => unfold hashIf Cli.hashIf; simp only []; rw [Thr.run_bind, hashStream_run]; rfl
  | noHash => rfl

theorem readEntries_run : ∀ ps, (readEntries ps).run = Storage.readEntries ps
  | [] => rfl
  | p :: ps => by
    unfold readEntries Storage.readEntries
    rw [Thr.run_bind, Thr.run_atom]; congr 1; funext _
    rw [Thr.run_bind, readFile_run]; congr 1; funext e
    rw [Thr.run_bind, readEntries_run ps]; rfl

theorem walkDir_run (p : PathBuf) : (walkDir p).run = Storage.readDir (.dir p) := by
  unfold walkDir
  rw [Thr.run_bind]
  funext w
  rw [Prog.bind_ok (show (Thr.atom (ε := Storage.Error) fun w => (.ok (Storage.World.below w p), w)).run w = (.ok (Storage.World.below w p), w) from rfl), readEntries_run]
  rfl

theorem gather_run : ∀ (order : List Nat) (ts : List (Thr ε Unit)) (w : World), (gather order ts).run w = (.ok (interleave order ts w).1, (interleave order ts w).2)
  | [], _, _ => rfl
  | i :: is, ts, w => by
    unfold gather interleave
    split
    · next eff k h => rw [h]; exact gather_run is _ _
    · next h =>
      split
      · next eff k h' => exact absurd h' (h eff k)
      · exact gather_run is ts w

theorem settle_run (t : Thr ε α) : ∀ w, (settle (ε' := ε') t).run w = (.ok (t.run w).1, (t.run w).2) := by
  induction t with
  | done r => intro w; rfl
  | step eff k ih => intro w; exact ih w (eff w)

theorem settleAll_run : ∀ (ts : List (Thr ε Unit)) (w : World), (settleAll ts).run w = (.ok (finish ts w).1, (finish ts w).2)
  | [], _ => rfl
  | t :: ts, w => by
    unfold settleAll
    rw [Thr.run_bind, Prog.bind_ok (settle_run t w), Thr.run_bind, Prog.bind_ok (settleAll_run ts _)]
    rfl

theorem joinAll_run (order : List Nat) (ts : List (Thr ε Unit)) : (joinAll order ts).run = spawnJoin order ts := by
  funext w
  unfold joinAll spawnJoin
  rw [Thr.run_bind, Prog.bind_ok (gather_run order ts w)]
  rcases interleave order ts w with ⟨ts', w'⟩
  simp only
  cases joined ts' with
  | some r => rfl
  | none =>
    simp only
    rw [Thr.run_bind, Prog.bind_ok (settleAll_run ts' w')]
    rfl

theorem readDir_run (e : Storage.Entry) : (readDir e).run = Storage.readDir e := by
  cases e with
  | dir p => exact walkDir_run p
  | file p h => rfl

theorem eraseDirExecute_run (order : List Nat) (e : Storage.Entry) (n : Int) : (eraseDirExecute order e n).run = EraseDir.execute order e n := by
  unfold eraseDirExecute EraseDir.execute
  rw [run_ite]
  congr 1
  rw [Thr.run_bind, Thr.run_mapErr, readDir_run]; congr 1; funext files
  rw [Thr.run_bind, joinAll_run]; rfl

theorem secureErase_run (s : Sys σ) (input : List Char) (passes : Int) (force : ForceMode) : (secureErase s input passes force).run = Cli.secureErase s input passes force := by
  unfold secureErase Cli.secureErase
  rw [Thr.run_bind, readInput_run]; congr 1; funext file
  rw [run_ite, Thr.run_mapErr, Erase.run_thread]
  congr 1
  rw [Thr.run_bind, Thr.run_atom]; congr 1; funext b
  cases b with
  | true => simp only [if_true]; rw [Thr.run_mapErr, eraseDirExecute_run]
  | false => rfl

theorem eraseIf_run (s : Sys σ) (mode : EraseMode) (force : ForceMode) (file : List Char) : (eraseIf s mode force file).run = Cli.eraseIf s mode force file := by
  cases mode with
  | eraseFile n => exact secureErase_run s file n force
  | ignoreFile => rfl

theorem encLoop_run (C : Crypto) (rh wh : Nat) (aad : Bytes) : ∀ (fuel : Nat) (s : Stream), (encLoop C rh wh aad fuel s).run = Volaris.encLoop C rh wh aad fuel s := by
  intro fuel
  induction fuel with
  | zero =>
    intro s; unfold encLoop Volaris.encLoop
    rw [Thr.run_bind, Thr.run_atom]; congr 1; funext b; rw [run_ite]
    congr 1
    · rw [Thr.run_bind]; congr 1; funext ⟨c, s⟩; simp only []; rw [Thr.run_bind]; rfl
    · rw [Thr.run_bind]; rfl
  | succ n ih =>
    intro s; unfold encLoop Volaris.encLoop
    rw [Thr.run_bind, Thr.run_atom]; congr 1; funext b; rw [run_ite]
    congr 1
    · rw [Thr.run_bind]; congr 1; funext ⟨c, s⟩; simp only []; rw [Thr.run_bind]; simp only [ih]; rfl
    · rw [Thr.run_bind]; rfl

theorem encryptFile_run (C : Crypto) (s : Stream) (rh wh : Nat) (aad : Bytes) : (encryptFile C s rh wh aad).run = Volaris.encryptFile C s rh wh aad := by
  unfold encryptFile Volaris.encryptFile; rw [Thr.run_bind, encLoop_run]; rfl

theorem writeHeader_run (req : Encrypt.Request) (header : Header) : (writeHeader req header).run = Encrypt.writeHeader req header := by
  unfold writeHeader Encrypt.writeHeader
  cases req.headerWriter with
  | none => simp only []; rw [Thr.run_bind]; congr 1; funext _; rw [Thr.run_bind]; rfl
  | some hw => simp only []; rw [Thr.run_bind, Thr.run_atom]; congr 1; funext _; rw [Thr.run_bind]; congr 1; funext _; rw [Thr.run_bind]; rfl

theorem encryptExecute_run (C : Crypto) (req : Encrypt.Request) : (encryptExecute C req).run = Encrypt.execute C req := by
  unfold encryptExecute Encrypt.execute
  rw [Thr.run_bind, Thr.run_atom]; congr 1; funext ⟨header, streams⟩; simp only []
  rw [Thr.run_bind, Thr.run_atom]; congr 1; funext _
  rw [Thr.run_bind, writeHeader_run]; congr 1; funext _
  rw [Thr.run_bind]; congr 1; funext aad
  rw [Thr.run_bind, Thr.run_atom]; congr 1; funext _
  rw [Thr.run_mapErr, encryptFile_run]

theorem encryptBody_run (s : Sys σ) (params : CryptoParams) (algorithm : Algorithm) (input output : Storage.Entry) (header : Option Storage.Entry) (rawKey : Bytes) :
    (encryptBody s params algorithm input output header rawKey).run = Cli.encryptBody s params algorithm input output header rawKey := by
  unfold encryptBody Cli.encryptBody
  rw [Thr.run_bind]; congr 1; funext reader
  rw [Thr.run_bind]; congr 1; funext writer
  rw [Thr.run_bind, Thr.run_mapErr, encryptExecute_run]; congr 1; funext _
  rw [Thr.run_bind, flushOpt_run]; congr 1; funext _
  rw [Thr.run_mapErr, flushFile_run]

theorem encryptMode_run (s : Sys σ) (input output : List Char) (params : CryptoParams) (algorithm : Algorithm) :
    (encryptMode s input output params algorithm).run = Cli.encryptMode s input output params algorithm := by
  unfold encryptMode Cli.encryptMode
  rw [run_ite]
  congr 1
  rw [Thr.run_bind, consent_run]; congr 1; funext _
  rw [Thr.run_bind, readInput_run]; congr 1; funext inputFile
  rw [Thr.run_bind, getSecret_run]; congr 1; funext rawKey
  rw [Thr.run_bind, openOutput_run]; congr 1; funext outputFile
  rw [Thr.run_bind, openHeader_run]; congr 1; funext headerFile
  rw [Thr.run_bind, encryptBody_run]; congr 1; funext _
  rw [Thr.run_bind, hashIf_run]; congr 1; funext _
  exact eraseIf_run ..

theorem deserialize_run (h : Nat) : (deserialize h).run = Volaris.deserialize h := by
  unfold deserialize Volaris.deserialize
  rw [Thr.run_bind, Thr.run_atom]; congr 1; funext vb
  rw [Thr.run_bind, Thr.run_atom]; congr 1; funext _
  cases parseVersion vb with
  | none => rfl
  | some v => simp only []; rw [Thr.run_bind]; rfl

theorem decLoop_run (C : Crypto) (rh wh : Nat) (aad : Bytes) : ∀ (fuel : Nat) (s : Stream), (decLoop C rh wh aad fuel s).run = Volaris.decLoop C rh wh aad fuel s := by
  intro fuel
  induction fuel with
  | zero =>
    intro s; unfold decLoop Volaris.decLoop
    rw [Thr.run_bind, Thr.run_atom]; congr 1; funext b; rw [run_ite]
    congr 1
    · rw [Thr.run_bind]; congr 1; funext ⟨c, s⟩; simp only []; rw [Thr.run_bind]; rfl
    · rw [Thr.run_bind]; rfl
  | succ n ih =>
    intro s; unfold decLoop Volaris.decLoop
    rw [Thr.run_bind, Thr.run_atom]; congr 1; funext b; rw [run_ite]
    congr 1
    · rw [Thr.run_bind]; congr 1; funext ⟨c, s⟩; simp only []; rw [Thr.run_bind]; simp only [ih]; rfl
    · rw [Thr.run_bind]; rfl

theorem decryptFile_run (C : Crypto) (s : Stream) (rh wh : Nat) (aad : Bytes) : (decryptFile C s rh wh aad).run = Volaris.decryptFile C s rh wh aad := by
  unfold decryptFile Volaris.decryptFile; rw [Thr.run_bind, decLoop_run]; rfl

theorem getHeader_run (req : Decrypt.Request) : (getHeader req).run = Decrypt.getHeader req := by
  unfold getHeader Decrypt.getHeader
  cases req.headerReader with
  | none => simp only []; rw [Thr.run_mapErr, deserialize_run]
  | some hr =>
    simp only []
    rw [Thr.run_bind, Thr.run_mapErr, deserialize_run]; congr 1; funext ⟨header, aad⟩; simp only []
    rw [Thr.run_bind, Thr.run_atom]; congr 1; funext got
    rw [run_ite]; congr 1; rw [Thr.run_bind]; rfl

theorem decryptRest_run (C : Crypto) (req : Decrypt.Request) (header : Header) (aad : Bytes) : (decryptRest C req header aad).run = Decrypt.body C req header aad := by
  unfold decryptRest Decrypt.body
  cases header.headerType.mode with
  | memoryMode =>
    simp only []
    rw [Thr.run_bind, Thr.run_atom]; congr 1; funext _
    rw [Thr.run_bind]; congr 1; funext _
    rw [Thr.run_bind]; congr 1; funext _
    rw [Thr.run_bind]; rfl
  | streamMode =>
    simp only []
    rw [Thr.run_bind]; congr 1; funext _
    rw [Thr.run_bind]; congr 1; funext _
    rw [Thr.run_mapErr, decryptFile_run]

theorem decryptExecute_run (C : Crypto) (req : Decrypt.Request) : (decryptExecute C req).run = Decrypt.execute C req := by
  unfold decryptExecute Decrypt.execute
  rw [Thr.run_bind, getHeader_run]; congr 1; funext ⟨header, aad⟩
  exact decryptRest_run ..

theorem decryptBody_run (s : Sys σ) (input output : Storage.Entry) (header : Option Storage.Entry) (rawKey : Bytes) :
    (decryptBody s input output header rawKey).run = Cli.decryptBody s input output header rawKey := by
  unfold decryptBody Cli.decryptBody
  rw [Thr.run_bind]; congr 1; funext reader
  rw [Thr.run_bind]; congr 1; funext writer
  rw [Thr.run_bind, Thr.run_mapErr, decryptExecute_run]; congr 1; funext _
  rw [Thr.run_mapErr, flushFile_run]

theorem decryptMode_run (s : Sys σ) (input output : List Char) (params : CryptoParams) : (decryptMode s input output params).run = Cli.decryptMode s input output params := by
  unfold decryptMode Cli.decryptMode
  rw [run_ite]
  congr 1
  rw [Thr.run_bind, consent_run]; congr 1; funext _
  rw [Thr.run_bind, readInput_run]; congr 1; funext inputFile
  rw [Thr.run_bind, readHeader_run]; congr 1; funext headerFile
  rw [Thr.run_bind, getSecret_run]; congr 1; funext rawKey
  rw [Thr.run_bind, openOutput_run]; congr 1; funext outputFile
  rw [Thr.run_bind, decryptBody_run]; congr 1; funext _
  rw [Thr.run_bind, hashIf_run]; congr 1; funext _
  exact eraseIf_run ..

theorem attempt_run (t : Thr ε α) : (attempt (ε' := ε') t).run = Prog.attempt t.run := by
  induction t with
  | done r => cases r <;> rfl
  | step eff k ih => funext w; exact congrFun (ih w) (eff w)

theorem anyFile_run : ∀ ps : List PathBuf, (anyFile (ε := ε) ps).run = Cli.anyFile ps
  | [] => rfl
  | p :: ps => by
    unfold anyFile
    rw [Thr.run_bind, Thr.run_atom]
    funext w
    rw [Prog.bind_ok (show Cli.anyFile [p] w = (.ok _, w) from rfl), run_ite, anyFile_run ps]
    have h (f : PathBuf → World → Bool) : (if ([p].any fun p => f p w) = true then (pure true : Thr ε Bool).run else fun w => (.ok (ps.any fun p => f p w), w)) w = (.ok ((p :: ps).any fun p => f p w), w) := by
      rw [List.any_cons, List.any_cons, List.any_nil, Bool.or_false]
      cases f p w <;> rfl
    exact h fun p w => match w.resolve p with
      | .ok q => match w.look q with
          | some (.file _) => true
          | _ => false
      | .error _ => false

theorem readInputs_run (s : Sys σ) : ∀ fs, (readInputs s fs).run = Cli.readInputs s fs
  | [] => rfl
  | f :: fs => by
    unfold readInputs Cli.readInputs
    rw [Thr.run_bind, readInput_run]; congr 1; funext e
    rw [Thr.run_bind, readInputs_run s fs]; rfl

theorem expand_run : ∀ es, (expand es).run = Cli.expand es
  | [] => rfl
  | e :: es => by
    unfold expand Cli.expand
    rw [Thr.run_bind]
    cases e with
    | dir p =>
      simp only []
      rw [Thr.run_mapErr, walkDir_run]; congr 1; funext files
      rw [Thr.run_bind, expand_run es]; rfl
    | file p h =>
      simp only []
      rw [Thr.run_pure]; congr 1; funext files
      rw [Thr.run_bind, expand_run es]; rfl

theorem createTempFile_run (tmp : PathBuf) : (createTempFile tmp).run = Storage.createTempFile tmp := by
  unfold createTempFile Storage.createTempFile; rw [Thr.run_bind]; rfl

theorem archiveLoop_run (h : Nat) : ∀ (fuel : Nat) (got : Bytes), (archiveLoop h fuel got).run = Pack.readFile h fuel got := by
  intro fuel
  induction fuel with
  | zero =>
    intro got; unfold archiveLoop Pack.readFile
    rw [Thr.run_bind, Thr.run_atom]; congr 1; funext b
    rw [Thr.run_bind, Thr.run_atom]; congr 1; funext _
    rw [run_ite]; rfl
  | succ n ih =>
    intro got; unfold archiveLoop Pack.readFile
    rw [Thr.run_bind, Thr.run_atom]; congr 1; funext b
    rw [Thr.run_bind, Thr.run_atom]; congr 1; funext _
    simp only [run_ite]; rw [ih]; rfl

theorem archiveFile_run (h : Nat) : (archiveFile h).run = Pack.readAll h := by
  unfold archiveFile
  rw [Thr.run_bind]
  funext w
  rw [Prog.bind_ok (show (Thr.atom (ε := Pack.Error × Bytes) fun w => (.ok (w.data h).length, w)).run w = (.ok (w.data h).length, w) from rfl), archiveLoop_run]
  rfl

theorem addEntry_run (z : Zip) (done : List ZipEntry) (f : Storage.Entry) : (addEntry z done f).run = Pack.addEntry z done f := by
  unfold addEntry Pack.addEntry
  cases f with
  | dir p => simp only []; rw [Thr.run_bind]; rfl
  | file p h =>
    simp only []
    rw [Thr.run_bind, Thr.run_atom]; congr 1; funext _
    rw [Thr.run_bind, Thr.run_mapErr, archiveFile_run]; rfl

theorem addAll_run (z : Zip) : ∀ (fs : List Storage.Entry) (done : List ZipEntry), (addAll z fs done).run = Pack.addAll z fs done
  | [], _ => rfl
  | f :: fs, done => by
    unfold addAll Pack.addAll
    rw [Thr.run_bind, addEntry_run]; congr 1; funext done
    exact addAll_run z fs done

theorem writeArchive_run (z : Zip) (t : Nat) (files : List Storage.Entry) : (writeArchive z t files).run = Pack.writeArchive z t files := by
  unfold writeArchive Pack.writeArchive
  rw [Thr.run_bind, attempt_run, addAll_run]; congr 1; funext r
  cases r with
  | ok l => rfl
  | abort a => rfl
  | err e => obtain ⟨e, l⟩ := e; simp only []; rw [Thr.run_bind]; rfl

theorem fileLen_run (e : Storage.Entry) : (fileLen e).run = Storage.fileLen e := by
  unfold fileLen Storage.fileLen; rw [Thr.run_bind]; rfl

theorem removeFile_run (e : Storage.Entry) : (removeFile e).run = Storage.removeFile e := by
  cases e with
  | file p h => exact Erase.run_removeFile p h
  | dir p => rfl

theorem packExecute_run (C : Crypto) (z : Zip) (tmp : PathBuf) (req : Pack.Request) : (packExecute C z tmp req).run = Pack.execute C z tmp req := by
  unfold packExecute Pack.execute
  rw [Thr.run_bind, Thr.run_mapErr, createTempFile_run]; congr 1; funext tmpFile
  rw [Thr.run_bind]; congr 1; funext t
  rw [Thr.run_bind, writeArchive_run]; congr 1; funext _
  rw [Thr.run_bind, Thr.run_mapErr, fileLen_run]; congr 1; funext cap
  rw [Thr.run_bind, attempt_run, Thr.run_mapErr, encryptExecute_run]; congr 1; funext r
  rw [Thr.run_bind, attempt_run, Erase.run_overwrite]; congr 1; funext _
  rw [Thr.run_bind, attempt_run, removeFile_run]; rfl

theorem packBody_run (s : Sys σ) (params : CryptoParams) (algorithm : Algorithm) (inputs : List Storage.Entry) (output : Storage.Entry) (header : Option Storage.Entry) (rawKey : Bytes) :
    (packBody s params algorithm inputs output header rawKey).run = Cli.packBody s params algorithm inputs output header rawKey := by
  unfold packBody Cli.packBody
  rw [Thr.run_bind, expand_run]; congr 1; funext files
  rw [Thr.run_bind]; congr 1; funext writer
  rw [Thr.run_bind, Thr.run_mapErr, packExecute_run]; congr 1; funext _
  rw [Thr.run_bind, flushOpt_run]; congr 1; funext _
  rw [Thr.run_mapErr, flushFile_run]

theorem eraseInputs_run (s : Sys σ) (force : ForceMode) : ∀ fs, (eraseInputs s force fs).run = Cli.eraseInputs s force fs
  | [] => rfl
  | f :: fs => by
    unfold eraseInputs Cli.eraseInputs
    rw [Thr.run_bind, secureErase_run]; congr 1; funext _
    exact eraseInputs_run s force fs

theorem packMode_run (s : Sys σ) (inputs : List (List Char)) (output : List Char) (packParams : PackParams) (params : CryptoParams) (algorithm : Algorithm) :
    (packMode s inputs output packParams params algorithm).run = Cli.packMode s inputs output packParams params algorithm := by
  unfold packMode Cli.packMode
  rw [run_ite]
  congr 1
  rw [Thr.run_bind, anyFile_run]; congr 1; funext b
  rw [run_ite]
  congr 1
  rw [Thr.run_bind, consent_run]; congr 1; funext _
  rw [Thr.run_bind, readInputs_run]; congr 1; funext inputFiles
  rw [Thr.run_bind, getSecret_run]; congr 1; funext rawKey
  rw [Thr.run_bind, openOutput_run]; congr 1; funext outputFile
  rw [Thr.run_bind, openHeader_run]; congr 1; funext headerFile
  rw [Thr.run_bind, packBody_run]; congr 1; funext _
  rw [Thr.run_bind, hashIf_run]; congr 1; funext _
  rw [run_ite, eraseInputs_run]; rfl

theorem onZipFile_run (force : ForceMode) (verbose : Bool) (p : PathBuf) : (onZipFile force verbose p).run = Cli.onZipFile force verbose p := by
  unfold onZipFile Cli.onZipFile
  cases fileName p with
  | none => rfl
  | some name =>
    simp only
    rw [Thr.run_bind]
    congr 1
    · rw [Thr.run_bind]; congr 1; funext b; cases b <;> rfl
    · funext b
      rw [run_ite]
      congr 1
      cases verbose <;> rfl

theorem entities_run (z : Zip) (t : Nat) (out : PathBuf) (cb : PathBuf → Thr Unpack.Error Bool) (cb' : PathBuf → Prog Unpack.Error Bool) (hcb : ∀ p, (cb p).run = cb' p) :
    ∀ (is : List Nat), (entities z t out cb is).run = Unpack.entities z t out (some cb') is
  | [] => rfl
  | i :: is => by
    unfold entities Unpack.entities
    rw [Thr.run_bind, Thr.run_atom]; congr 1; funext r
    cases r with
    | ok m =>
      simp only
      cases ZipName.enclosed m.name with
      | some cs =>
        simp only
        rw [Thr.run_bind, hcb]
        show _ = (cb' _ >>= _)
        congr 1; funext keep
        rw [Thr.run_bind, entities_run z t out cb cb' hcb is]; rfl
      | none => exact entities_run z t out cb cb' hcb is
    | err e => exact entities_run z t out cb cb' hcb is
    | abort a => rfl

theorem extract_run (z : Zip) (t : Nat) (e : Unpack.Entity) : (extract z t e).run = Unpack.extract z t e := by
  unfold extract Unpack.extract
  rw [Thr.run_bind, Thr.run_atom]; congr 1; funext m
  rw [Thr.run_bind, Thr.run_mapErr, orElse_run]
  show _ = ((Unpack.orElse (Storage.createFile e.1) (Storage.writeFile e.1)).mapErr _ >>= _)
  congr 1; funext file
  rw [Thr.run_bind]
  show _ = (Prog.lift _ >>= _)
  congr 1; funext h
  unfold copyMember Unpack.copy
  rw [Thr.run_bind]; congr 1; funext _
  rw [Thr.run_bind]; congr 1; funext _
  rw [run_ite]; rfl

theorem extractAll_run (z : Zip) (t : Nat) : ∀ (es : List Unpack.Entity), (extractAll z t es).run = Unpack.extractAll z t es
  | [] => rfl
  | e :: es => by
    unfold extractAll Unpack.extractAll
    rw [Thr.run_bind, extract_run]; congr 1; funext _
    exact extractAll_run z t es

theorem recover_run (z : Zip) (order : List Nat) (t : Nat) (req : Unpack.Request) (cb : PathBuf → Thr Unpack.Error Bool) (cb' : PathBuf → Prog Unpack.Error Bool) (hcb : ∀ p, (cb p).run = cb' p) (h : req.onZipFile = some cb') :
    (recover z order t req.outputDir cb).run = Unpack.recover z order t req := by
  unfold recover Unpack.recover
  rw [Thr.run_bind]; congr 1; funext _
  rw [Thr.run_bind]; congr 1; funext n
  rw [Thr.run_bind, entities_run z t _ cb cb' hcb, h]; congr 1; funext es
  rw [Thr.run_bind, joinAll_run]; congr 1; funext _
  exact extractAll_run ..

theorem unpackExecute_run (C : Crypto) (z : Zip) (tmp : PathBuf) (order : List Nat) (req : Unpack.Request) (cb : PathBuf → Thr Unpack.Error Bool) (cb' : PathBuf → Prog Unpack.Error Bool) (hcb : ∀ p, (cb p).run = cb' p)
    (h : req.onZipFile = some cb') : (unpackExecute C z tmp order req.reader req.headerReader req.rawKey req.outputDir cb).run = Unpack.execute C z tmp order req := by
  unfold unpackExecute Unpack.execute
  rw [Thr.run_bind, Thr.run_mapErr, createTempFile_run]; congr 1; funext tmpFile
  rw [Thr.run_bind]; congr 1; funext t
  rw [Thr.run_bind, Thr.run_mapErr, decryptExecute_run]; congr 1; funext _
  rw [Thr.run_bind, Thr.run_mapErr, fileLen_run]; congr 1; funext cap
  rw [Thr.run_bind, recover_run z order t req cb cb' hcb h]; congr 1; funext _
  rw [Thr.run_bind, attempt_run, Erase.run_overwrite]; congr 1; funext _
  rw [Thr.run_bind, attempt_run, removeFile_run]; rfl

theorem unpackMode_run (s : Sys σ) (input output : List Char) (verbose : Bool) (params : CryptoParams) : (unpackMode s input output verbose params).run = Cli.unpackMode s input output verbose params := by
  unfold unpackMode Cli.unpackMode
  rw [Thr.run_bind, readInput_run]; congr 1; funext inputFile
  rw [Thr.run_bind, readHeader_run]; congr 1; funext headerFile
  rw [Thr.run_bind, getSecret_run]; congr 1; funext rawKey
  rw [Thr.run_bind]
  show _ = (Cli.streamOf inputFile >>= _)
  congr 1; funext reader
  rw [Thr.run_bind, Thr.run_mapErr]
  rw [show _ = _ from unpackExecute_run s.C s.z s.tmp s.order ⟨reader, optStream headerFile, rawKey, toPath s.cwd output, some (Cli.onZipFile params.force verbose)⟩ (onZipFile params.force verbose) _ (fun p => onZipFile_run ..) rfl]
  congr 1; funext _
  exact hashIf_run ..

theorem headerWrite_run (hd : Header) (h : Nat) : (headerWrite hd h).run = Header.write hd h := by
  unfold headerWrite Header.write; rw [Thr.run_bind]; congr 1; funext _; rw [Thr.run_bind]; rfl

theorem keyLoad_run (h : Nat) : (keyLoad h).run = KeyOps.load h := by
  unfold keyLoad KeyOps.load
  rw [Thr.run_bind, Thr.run_mapErr, deserialize_run]; congr 1; funext ⟨header, aad⟩; simp only []
  rw [run_ite]; congr 1
  rw [Thr.run_bind, Thr.run_atom]; congr 1; funext _
  cases header.keyslots <;> rfl

theorem keyStore_run (h : Nat) (header : Header) (ks : List Keyslot) : (keyStore h header ks).run = KeyOps.store h header ks := by
  unfold keyStore KeyOps.store; rw [Thr.run_mapErr, headerWrite_run]

theorem keyAddExecute_run (C : Crypto) (req : KeyOps.NewKeyRequest) : (keyAddExecute C req).run = KeyOps.add C req := by
  unfold keyAddExecute KeyOps.add
  rw [Thr.run_bind, keyLoad_run]; congr 1; funext ⟨header, ks⟩; simp only []
  rw [Thr.run_bind, run_done]; congr 1; funext ⟨mk, i⟩; simp only []
  rw [run_ite]; congr 1
  rw [Thr.run_bind, Thr.run_atom]; congr 1; funext salt
  rw [Thr.run_bind, Thr.run_atom]; congr 1; funext nonce
  rw [Thr.run_bind, run_done]; congr 1; funext keyNew
  rw [Thr.run_bind, run_done]; congr 1; funext ek
  exact keyStore_run ..

theorem keyChangeExecute_run (C : Crypto) (req : KeyOps.NewKeyRequest) : (keyChangeExecute C req).run = KeyOps.change C req := by
  unfold keyChangeExecute KeyOps.change
  rw [Thr.run_bind, keyLoad_run]; congr 1; funext ⟨header, ks⟩; simp only []
  rw [Thr.run_bind, run_done]; congr 1; funext ⟨mk, i⟩; simp only []
  rw [Thr.run_bind, Thr.run_atom]; congr 1; funext salt
  rw [Thr.run_bind, run_done]; congr 1; funext keyNew
  rw [Thr.run_bind, Thr.run_atom]; congr 1; funext nonce
  rw [Thr.run_bind, run_done]; congr 1; funext ek
  rw [run_ite, keyStore_run]; rfl

theorem keyDeleteExecute_run (C : Crypto) (h : Nat) (pw : Bytes) : (keyDeleteExecute C h pw).run = KeyOps.delete C h pw := by
  unfold keyDeleteExecute KeyOps.delete
  rw [Thr.run_bind, keyLoad_run]; congr 1; funext ⟨header, ks⟩; simp only []
  rw [Thr.run_bind, run_done]; congr 1; funext ⟨mk, i⟩; simp only []
  rw [run_ite, keyStore_run]; rfl

theorem keyVerifyExecute_run (C : Crypto) (h : Nat) (pw : Bytes) : (keyVerifyExecute C h pw).run = KeyOps.verify C h pw := by
  unfold keyVerifyExecute KeyOps.verify
  rw [Thr.run_bind, Thr.run_mapErr, deserialize_run]; congr 1; funext ⟨header, aad⟩; simp only []
  rw [run_ite]; congr 1
  cases header.keyslots with
  | none => rfl
  | some ks => simp only []; rw [Thr.run_bind]; rfl

theorem openV5_run (s : Sys σ) (input : List Char) : (openV5 s input).run = Cli.openV5 s input := by
  unfold openV5 Cli.openV5
  rw [Thr.run_bind, Thr.run_atom]; congr 1; funext handle
  rw [Thr.run_bind, Thr.run_mapErr, deserialize_run]; congr 1; funext ⟨header, aad⟩; simp only []
  rw [run_ite]; congr 1
  rw [Thr.run_bind]; rfl

theorem keyAdd_run (s : Sys σ) (input : List Char) (params : KeyManipulationParams) : (keyAdd s input params).run = Cli.keyAdd s input params := by
  unfold keyAdd Cli.keyAdd
  rw [Thr.run_bind, openV5_run]; congr 1; funext handle
  rw [Thr.run_bind, Thr.run_atom]; congr 1; funext _
  rw [Thr.run_bind, getSecret_run]; congr 1; funext old
  rw [Thr.run_bind, Thr.run_atom]; congr 1; funext _
  rw [Thr.run_bind, getSecret_run]; congr 1; funext new
  rw [Thr.run_mapErr, keyAddExecute_run]

theorem keyChange_run (s : Sys σ) (input : List Char) (params : KeyManipulationParams) : (keyChange s input params).run = Cli.keyChange s input params := by
  unfold keyChange Cli.keyChange
  rw [Thr.run_bind, openV5_run]; congr 1; funext handle
  rw [Thr.run_bind, Thr.run_atom]; congr 1; funext _
  rw [Thr.run_bind, getSecret_run]; congr 1; funext old
  rw [Thr.run_bind, Thr.run_atom]; congr 1; funext _
  rw [Thr.run_bind, getSecret_run]; congr 1; funext new
  rw [Thr.run_mapErr, keyChangeExecute_run]

theorem keyDelete_run (s : Sys σ) (input : List Char) (key : Key) : (keyDelete s input key).run = Cli.keyDelete s input key := by
  unfold keyDelete Cli.keyDelete
  rw [Thr.run_bind, openV5_run]; congr 1; funext handle
  rw [Thr.run_bind, Thr.run_atom]; congr 1; funext _
  rw [Thr.run_bind, getSecret_run]; congr 1; funext old
  rw [Thr.run_mapErr, keyDeleteExecute_run]

theorem keyVerify_run (s : Sys σ) (input : List Char) (key : Key) : (keyVerify s input key).run = Cli.keyVerify s input key := by
  unfold keyVerify Cli.keyVerify
  rw [Thr.run_bind, openV5_run]; congr 1; funext handle
  rw [Thr.run_bind, Thr.run_atom]; congr 1; funext _
  rw [Thr.run_bind, getSecret_run]; congr 1; funext old
  rw [Thr.run_mapErr, keyVerifyExecute_run]

theorem dumpExecute_run (r w : Nat) : (dumpExecute r w).run = HeaderOps.dump r w := by
  unfold dumpExecute HeaderOps.dump
  rw [Thr.run_bind, Thr.run_mapErr, deserialize_run]; congr 1; funext ⟨header, aad⟩; simp only []
  rw [Thr.run_mapErr, headerWrite_run]

theorem restoreExecute_run (r w : Nat) : (restoreExecute r w).run = HeaderOps.restore r w := by
  unfold restoreExecute HeaderOps.restore
  rw [Thr.run_bind, Thr.run_mapErr, deserialize_run]; congr 1; funext ⟨header, aad⟩; simp only []
  rw [Thr.run_bind, Thr.run_atom]; congr 1; funext got
  rw [run_ite]; congr 1
  rw [Thr.run_bind, Thr.run_atom]; congr 1; funext _
  rw [Thr.run_mapErr, headerWrite_run]

theorem stripExecute_run (h : Nat) : (stripExecute h).run = HeaderOps.strip h := by
  unfold stripExecute HeaderOps.strip
  rw [Thr.run_bind, Thr.run_mapErr, deserialize_run]; congr 1; funext ⟨header, aad⟩; simp only []
  rw [Thr.run_bind]; rfl

theorem headerDetails_run (s : Sys σ) (input : List Char) : (headerDetails s input).run = Cli.headerDetails s input := by
  unfold headerDetails Cli.headerDetails
  rw [Thr.run_bind, Thr.run_atom]; congr 1; funext f
  rw [Thr.run_bind, Thr.run_mapErr, deserialize_run]; congr 1; funext ⟨h, aad⟩; simp only []
  rw [Thr.run_bind, Thr.run_atom]; congr 1; funext _
  rw [Thr.run_bind, run_done]; congr 1; funext rest
  rw [Thr.run_bind]; rfl

theorem headerDump_run (s : Sys σ) (input output : List Char) (force : ForceMode) : (headerDump s input output force).run = Cli.headerDump s input output force := by
  unfold headerDump Cli.headerDump
  rw [Thr.run_bind, readInput_run]; congr 1; funext i
  rw [Thr.run_bind, consent_run]; congr 1; funext _
  rw [Thr.run_bind, openOutput_run]; congr 1; funext o
  rw [Thr.run_bind]; congr 1; funext r
  rw [Thr.run_bind]; congr 1; funext w
  rw [Thr.run_bind, Thr.run_mapErr, dumpExecute_run]; congr 1; funext _
  rw [Thr.run_mapErr, flushFile_run]

theorem headerRestore_run (s : Sys σ) (input output : List Char) : (headerRestore s input output).run = Cli.headerRestore s input output := by
  unfold headerRestore Cli.headerRestore
  rw [Thr.run_bind, readInput_run]; congr 1; funext i
  rw [Thr.run_bind, Thr.run_atom]; congr 1; funext w
  rw [Thr.run_bind]; congr 1; funext r
  rw [Thr.run_mapErr, restoreExecute_run]

theorem headerStrip_run (s : Sys σ) (input : List Char) : (headerStrip s input).run = Cli.headerStrip s input := by
  unfold headerStrip Cli.headerStrip
  rw [Thr.run_bind, Thr.run_atom]; congr 1; funext h
  rw [Thr.run_mapErr, stripExecute_run]

end Volaris.Cli.Steps
