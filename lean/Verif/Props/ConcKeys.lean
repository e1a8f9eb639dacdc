import Verif.Proofs.ConcKeyMachine
import Verif.Props.Keys
import Verif.Props.Concurrent
import Verif.Props.Commands
/-!
# Key operations on one file at the same time
-/
namespace Volaris.Props
open Volaris.Spec Volaris.KeyOps

/-! ### C96 for the commands on keys and headers -/

/-- Two encrypted files, `z` and `u`, and one that is not encrypted, `y`. -/
def exVault : Disk where
  file := fun i => if i = 1 then [4, 5, 6] else exFile
  nextIno := 3
  dir := [([['z']], .file 0), ([['y']], .file 1), ([['u']], .file 2)]

theorem exVault_allocated : Disk.Allocated exVault := by
  intro q i h
  unfold lookDisk at h
  split at h
  · cases h
  · cases hf : exVault.dir.find? (·.1 = q) with
    | none => rw [hf] at h; cases h
    | some e =>
      rw [hf] at h
      have hm := List.mem_of_find?_eq_some hf
      have hm : e ∈ ([([['z']], .file 0), ([['y']], .file 1), ([['u']], .file 2)] : List (Path × Node)) := hm
      show i < 3
      simp only [List.mem_cons, List.not_mem_nil, or_false] at hm
      rcases hm with rfl | rfl | rfl <;> cases h <;> decide

/-- A password is added to `z`; the header of `u` is copied to `v`; a password is tried on `u`. -/
def exVaultJobs : List (Started Bytes) :=
  [⟨exSys, .keyAdd ['z'] exKeyParams, (exKeyWorld exTyped []).on exVault⟩, ⟨exSys, .headerDump ['u'] ['v'] .prompt, (exWorld [] []).on exVault⟩,
    ⟨exSys, .keyVerify ['u'] .user, (exKeyWorld exTyped []).on exVault⟩]

/-- The hypotheses of C96 are met by these commands; all three succeed when they take turns, `z` is changed, and `v` has the header of `u`. -/
example : Disk.Allocated exVault ∧ (∀ c ∈ exVaultJobs, c.Fits exVault) ∧ Independent exVault exVaultJobs ∧
    (∀ i < 3, ((exEnd ((startAll exVaultJobs exVault).run exTurns) i).map Prod.fst) = some true) ∧
    contentAt ((startAll exVaultJobs exVault).run exTurns).disk [['z']] ≠ some (some exFile) ∧ contentAt ((startAll exVaultJobs exVault).run exTurns).disk [['v']] = some (some (exFile.take 416)) := by
  refine ⟨exVault_allocated, ?_, ?_, by decide +kernel, by decide +kernel, by decide +kernel⟩
  · have : exVaultJobs.all (fun c => exFits c exVault) = true := by decide +kernel
    exact fun c hc => exFits_of (List.all_eq_true.1 this c hc)
  · have : (List.range 3).all (fun i => (List.range 3).all fun j => i == j || match exVaultJobs[i]?, exVaultJobs[j]? with | some c, some c' => exSpares exVault c c' | _, _ => false) = true := by
      decide +kernel
    intro i j c c' hne hc hc'
    have hi : i < 3 := (List.getElem?_eq_some_iff.1 hc).1
    have hj : j < 3 := (List.getElem?_eq_some_iff.1 hc').1
    have := List.all_eq_true.1 (List.all_eq_true.1 this i (List.mem_range.2 hi)) j (List.mem_range.2 hj)
    rw [hc, hc'] at this
    exact exSpares_of (by simpa [hne] using this)

/-! ### C98 -/

/-- **C98, part (the file).** Any number of key operations on one file, their system calls in any order, failing and interrupted ones included (no short transfers): at every moment the file is that of some of the calls that have returned `Ok`,
carried out one after the other on the list of passwords, where all of them succeed: of the passwords in play exactly those of the resulting list decrypt the file, to the same plaintext, and all others are refused.  Nothing but the
header changes.  What is missing: that these are *all* calls that have returned `Ok`; see `C98_update_lost` and `C98_deleted_returns`. -/
theorem C98_version_partial (C : Crypto) (hC : C.Lawful) (cs : List KeyCall) (d : Disk) (i : Nat) (hd : Header) (ks : List Keyslot) (aad mk p : Bytes) (U l : List Bytes)
    (hfit : ∀ c ∈ cs, c.Fits C hd.headerType.algorithm mk U i) (hf : KeyFile (d.file i) hd ks aad) (hsl : SlotsFor C hd.headerType.algorithm mk U l ks) (hl : ∀ pw ∈ l, pw ∈ U)
    (hb : BodyOf C hd mk aad p ((d.file i).drop 416)) (order : List Nat) :
    let m := (startKeys C cs d).run order
    (∃ js, Selection cs l m js ∧ OpenedBy C U (onListAll (chosen cs js) l).2 (m.disk.file i) p) ∧
    (m.disk.file i).drop 416 = (d.file i).drop 416 ∧ (∀ k, k ≠ i → m.disk.file k = d.file k) ∧ m.disk.dir = d.dir ∧ m.disk.nextIno = d.nextIno := by
  let x : ConcKeys.Ctx := ⟨C, hd.headerType, hd.nonce, aad, mk, (d.file i).drop 416, U, i, 0, .verify [], Example.world fun _ => []⟩
  have hh : x.Holds l (d.file i) := ConcKeys.holds_iff.2 ⟨hl, rfl, hd, ks, hf, rfl, rfl, hsl⟩
  obtain ⟨phs, hi⟩ := ConcKeys.inv_run order (ConcKeys.inv_start (x := x) (cs := cs) hC hfit hh)
  obtain ⟨js, l', hch, hh'⟩ := hi.now
  refine ⟨⟨js, hi.selection hch, ?_⟩, hh'.body, hi.others, hi.dir, hi.nextIno⟩
  rw [hch.list]
  exact hh'.opened hC fun hd' e1 e2 => (bodyOf_congr e1 e2).2 hb

/-- **C98, part (the results).** No call ends otherwise than with `Ok` or an error; a call that has returned `Ok` succeeds on the list that some of the calls that have returned `Ok` lead to. -/
theorem C98_results_partial (C : Crypto) (hC : C.Lawful) (cs : List KeyCall) (d : Disk) (i : Nat) (hd : Header) (ks : List Keyslot) (aad mk : Bytes) (U l : List Bytes)
    (hfit : ∀ c ∈ cs, c.Fits C hd.headerType.algorithm mk U i) (hf : KeyFile (d.file i) hd ks aad) (hsl : SlotsFor C hd.headerType.algorithm mk U l ks) (hl : ∀ pw ∈ l, pw ∈ U)
    (order : List Nat) (j : Nat) (c : KeyCall) (hc : cs[j]? = some c) (r : Res Cli.Error Unit) (hr : KeyReturned ((startKeys C cs d).run order) j r) :
    (∀ a, r ≠ .abort a) ∧ (r = .ok () → ∃ js, Selection cs l ((startKeys C cs d).run order) js ∧ (c.cmd.onList (onListAll (chosen cs js) l).2).1 = .ok ()) := by
  let x : ConcKeys.Ctx := ⟨C, hd.headerType, hd.nonce, aad, mk, (d.file i).drop 416, U, i, 0, .verify [], Example.world fun _ => []⟩
  have hh : x.Holds l (d.file i) := ConcKeys.holds_iff.2 ⟨hl, rfl, hd, ks, hf, rfl, rfl, hsl⟩
  obtain ⟨phs, hi⟩ := ConcKeys.inv_run order (ConcKeys.inv_start (x := x) (cs := cs) hC hfit hh)
  obtain ⟨h1, h2⟩ := hi.outcome hc hr
  refine ⟨h1, fun e => ?_⟩
  rcases h2 e with h | ⟨l1, pw, _, h, hok⟩
  · obtain ⟨js, l', hch, hok⟩ := hi.did j c hc h
    exact ⟨js, hi.selection hch, by rw [hch.list]; exact hok⟩
  · obtain ⟨js, hch⟩ := hi.then_ j l1 h
    exact ⟨js, hi.selection hch, by rw [hch.list]; exact hok⟩

/-- **C98, part (the steps).** A step of a call leaves the whole disk as it is, and then the call does not return `Ok` in this step unless it is one that only looks; or the call is not one that only looks and this is its last step, in which it returns `Ok`, and the file becomes that of some
calls that have returned `Ok` before, followed by this one. -/
theorem C98_step_partial (C : Crypto) (hC : C.Lawful) (cs : List KeyCall) (d : Disk) (i : Nat) (hd : Header) (ks : List Keyslot) (aad mk p : Bytes) (U l : List Bytes)
    (hfit : ∀ c ∈ cs, c.Fits C hd.headerType.algorithm mk U i) (hf : KeyFile (d.file i) hd ks aad) (hsl : SlotsFor C hd.headerType.algorithm mk U l ks) (hl : ∀ pw ∈ l, pw ∈ U)
    (hb : BodyOf C hd mk aad p ((d.file i).drop 416)) (order : List Nat) (j : Nat) (c : KeyCall) (hc : cs[j]? = some c) :
    let m := (startKeys C cs d).run order
    ((m.step j).disk = m.disk ∧ (KeyReturned (m.step j) j (.ok ()) → KeyReturned m j (.ok ()) ∨ c.cmd.looksOnly)) ∨
    (¬ c.cmd.looksOnly ∧ ¬ KeyReturned m j (.ok ()) ∧ ∃ js, Selection cs l m js ∧ Selection cs l (m.step j) (js ++ [j]) ∧ OpenedBy C U (onListAll (chosen cs (js ++ [j])) l).2 ((m.step j).disk.file i) p) := by
  let x : ConcKeys.Ctx := ⟨C, hd.headerType, hd.nonce, aad, mk, (d.file i).drop 416, U, i, 0, .verify [], Example.world fun _ => []⟩
  have hh : x.Holds l (d.file i) := ConcKeys.holds_iff.2 ⟨hl, rfl, hd, ks, hf, rfl, rfl, hsl⟩
  obtain ⟨phs, hi⟩ := ConcKeys.inv_run order (ConcKeys.inv_start (x := x) (cs := cs) hC hfit hh)
  obtain ⟨phs', hi', _, _, h⟩ := ConcKeys.inv_step hi j
  rcases h with ⟨h1, h2⟩ | ⟨⟨s, f, k, hp⟩, c', l1, js, hc', hlk, hr, hw, hok, hch, hch', hnew⟩
  · refine .inl ⟨h1, fun hr => ?_⟩
    rcases (hi'.outcome hc hr).2 rfl with h | ⟨_, pw, h, _⟩
    · exact .inl (hi.returned (h2 h))
    · exact .inr (by rw [h]; trivial)
  · rw [hc] at hc'; cases hc'
    refine .inr ⟨hlk, fun hret => ?_, js, hi.selection hch, hi'.selection hch', by rw [hch'.list]; exact hnew.opened hC fun hd' e1 e2 => (bodyOf_congr e1 e2).2 hb⟩
    obtain ⟨q, hq, e⟩ := hret
    rw [hp] at hq; cases hq; cases e

/-- **C98, part (undisturbed).** A call in whose time, from before its first step to its last, the file has not been changed by another: if it returns `Ok` in its last step, it succeeds on the list of the file as it was, and the file becomes that of the
list that follows; so nothing is lost when the calls follow each other. -/
theorem C98_undisturbed_partial (C : Crypto) (hC : C.Lawful) (cs : List KeyCall) (d : Disk) (i : Nat) (hd : Header) (ks : List Keyslot) (aad mk : Bytes) (U l : List Bytes)
    (hfit : ∀ c ∈ cs, c.Fits C hd.headerType.algorithm mk U i) (hf : KeyFile (d.file i) hd ks aad) (hsl : SlotsFor C hd.headerType.algorithm mk U l ks) (hl : ∀ pw ∈ l, pw ∈ U)
    (before during : List Nat) (j : Nat) (c : KeyCall) (hc : cs[j]? = some c) (hnot : ¬ c.cmd.looksOnly) (hj : j ∉ before)
    (hsame : ∀ xs ys, during = xs ++ ys → ((startKeys C cs d).run (before ++ xs)).disk.file i = ((startKeys C cs d).run before).disk.file i)
    (h1 : ¬ KeyReturned ((startKeys C cs d).run (before ++ during)) j (.ok ())) (h2 : KeyReturned ((startKeys C cs d).run (before ++ during ++ [j])) j (.ok ())) :
    ∀ l', KeysAre C hd.headerType hd.nonce aad mk ((d.file i).drop 416) U l' (((startKeys C cs d).run before).disk.file i) →
      (c.cmd.onList l').1 = .ok () ∧ KeysAre C hd.headerType hd.nonce aad mk ((d.file i).drop 416) U (c.cmd.onList l').2 (((startKeys C cs d).run (before ++ during ++ [j])).disk.file i) := by
  intro l' hl'
  let x : ConcKeys.Ctx := ⟨C, hd.headerType, hd.nonce, aad, mk, (d.file i).drop 416, U, i, 0, .verify [], Example.world fun _ => []⟩
  have hh : x.Holds l (d.file i) := ConcKeys.holds_iff.2 ⟨hl, rfl, hd, ks, hf, rfl, rfl, hsl⟩
  have hstart := ConcKeys.inv_start (x := x) (cs := cs) hC hfit hh
  obtain ⟨phs, hi⟩ := ConcKeys.inv_run before hstart
  have hh' : x.Holds l' (((startKeys C cs d).run before).disk.file i) := ConcKeys.holds_iff.2 hl'
  simp only [ConcKeys.run_append] at hsame h1 h2 ⊢
  have hp0 : ((startKeys C cs d).run before).procs[j]? = some ⟨c.self, (c.cmd.steps C c.handle).mapErr .key⟩ := by
    rw [ConcKeys.run_untouched hj]
    simp [startKeys, hc]
  obtain ⟨p, ph, hp, ht, hph⟩ := ConcKeys.undisturbed hc during hi hh' ⟨_, .fresh, hp0, ConcKeys.tame_start hC (hfit c (List.mem_of_getElem? hc)), .inl rfl⟩ hsame h1
  have hlast : x.Holds l' ((((startKeys C cs d).run before).run during).disk.file i) := by
    rw [hsame during [] (by simp)]; exact hh'
  rcases ConcKeys.step_cases (((startKeys C cs d).run before).run during) j with e | ⟨s, f, k, hp', e⟩
  · exact absurd (by have h2 : KeyReturned ((((startKeys C cs d).run before).run during).step j) j (.ok ()) := h2
                     rw [e] at h2; exact h2) h1
  rw [hp] at hp'; cases hp'
  obtain ⟨hne, hstep⟩ := ht
  obtain ⟨ph', htr, ht'⟩ := hstep _ l' (hlast.call c)
  have e' : ((((startKeys C cs d).run before).run during).run [j]) = _ := e
  rw [e'] at h2 ⊢
  obtain ⟨q, hq, hqr⟩ := h2
  rw [show (List.set _ j _)[j]? = _ from List.getElem?_set_self (List.getElem?_eq_some_iff.1 hp).1] at hq
  cases hq
  have hqr : k _ = _ := hqr
  rw [hqr] at ht'
  have hw : ph' = .wrote := by
    rcases ht'.1 () rfl with h | ⟨_, pw, h, _⟩
    · exact h
    · refine absurd ?_ hnot
      have h : c.cmd = .verify pw := h
      rw [h]; trivial
  subst hw
  rcases htr with ⟨_, h | ⟨_, h⟩⟩ | ⟨l1, _, hr, _, hok, _, _, _, hnew⟩
  · exact absurd h.symm hne
  · cases h
  · rcases hph with h | h
    · rw [h] at hr; cases hr
    · rw [h] at hr; cases hr
      exact ⟨hok, ConcKeys.holds_iff.1 hnew.base⟩

/-- **C98, every call ends** when it has made seven steps of its own, whatever the others do, and whatever is in the file. -/
theorem C98_ends (C : Crypto) (cs : List KeyCall) (d : Disk) (order : List Nat) (j : Nat) (hj : j < cs.length) (hn : 7 ≤ order.count j) :
    ∃ r, KeyReturned ((startKeys C cs d).run order) j r := by
  obtain ⟨p, hp, hw⟩ := ConcKeys.within_run (j := j) order (m := startKeys C cs d) (n := 7)
    ⟨⟨cs[j].self, (cs[j].cmd.steps C cs[j].handle).mapErr .key⟩, by simp [startKeys, hj], .mapErr (ConcKeys.within_call C _ _)⟩
  rw [Nat.sub_eq_zero_of_le hn] at hw
  cases h : p.rest with
  | done r => exact ⟨r, p, hp, h⟩
  | step f k => rw [h] at hw; cases hw

/-! ### The hypotheses are met, and what goes wrong -/

/-- Two processes have opened the example file. -/
def exPair (c1 c2 : KeyCmd) : List KeyCall := [⟨c1, 0, Example.world1 exFile⟩, ⟨c2, 0, Example.world1 exFile⟩]

def exKeyDisk : Disk := (Example.world1 exFile).disk

theorem exKey_slots : SlotsFor Example.toy .aes256Gcm (List.replicate 32 5) exU [[112, 119]] [ex19Slot] := by
  refine ⟨rfl, ?_⟩
  intro q hq
  have hq : q = ([112, 119], ex19Slot) := by simpa using hq
  subst hq
  refine ⟨ex19_opens, ?_⟩
  intro pw hpw hne m
  refine toy_apart (salt := List.replicate 16 9) (nonce := List.replicate 12 8) (pw := [112, 119]) (mk := List.replicate 32 5) (h := .argon2id 3)
    ⟨rfl, rfl, rfl, _, ⟨_, rfl, rfl⟩, rfl⟩ fun f hf => ?_
  have hf : f = .argon2id 262144 10 4 := by simpa [kdfParams] using hf.symm
  subst hf
  simp only [exU, List.mem_cons, List.not_mem_nil, or_false] at hpw
  rcases hpw with rfl | rfl | rfl
  · exact absurd rfl hne
  · decide +kernel
  · decide +kernel

theorem exKey_body : BodyOf Example.toy exHeader (List.replicate 32 5) (ex19Aad (List.replicate 8 1)) [1, 2, 3] ((exKeyDisk.file 0).drop 416) := by
  refine ⟨by decide, ?_⟩
  rw [show (exKeyDisk.file 0).drop 416 = ex19Body by decide +kernel]
  exact .last (by decide) (by decide +kernel)

theorem exPair_fits {c1 c2 : KeyCmd} (h1 : ∀ pw ∈ c1.passwords, pw ∈ exU) (h2 : ∀ pw ∈ c2.passwords, pw ∈ exU) : ∀ c ∈ exPair c1 c2, c.Fits Example.toy .aes256Gcm (List.replicate 32 5) exU 0 := by
  have ht : ToldApart Example.toy .aes256Gcm (List.replicate 32 5) exU (Example.world1 exFile) 1 := exTold_of (by decide +kernel)
  have hs : ∀ k, Io.short k ∉ (Example.world1 exFile).sched := by intro k; exact List.not_mem_nil
  intro c hc
  simp only [exPair, List.mem_cons, List.not_mem_nil, or_false] at hc
  rcases hc with rfl | rfl
  · exact ⟨rfl, hs, h1, ht⟩
  · exact ⟨rfl, hs, h2, ht⟩

/-- Whether call `j` has returned `Ok`. -/
def exCallOk (m : Machine) (j : Nat) : Bool := match m.procs[j]? with
  | some ⟨_, .done (.ok _)⟩ => true
  | _ => false

theorem exCallOk_of {m : Machine} {j : Nat} (h : exCallOk m j = true) : KeyReturned m j (.ok ()) := by
  unfold exCallOk at h
  cases hp : m.procs[j]? with
  | none => rw [hp] at h; cases h
  | some p =>
    rw [hp] at h
    rcases p with ⟨self, rest⟩
    cases rest with
    | step eff k => cases h
    | done r => cases r with
      | ok r => exact ⟨_, hp, rfl⟩
      | err e => cases h
      | abort e => cases h

/-- The two take turns. -/
def exKeyTurns : List Nat := (List.range 14).map (· % 2)

/-- What one of the calls would make of the file, alone. -/
theorem exAlone {c : KeyCmd} (hc : ∀ pw ∈ c.passwords, pw ∈ exU) : OpenedBy Example.toy exU (onListAll [c] [[112, 119]]).2 ((onFileAll Example.toy 0 [c] (Example.world1 exFile)).2.data 0) [1, 2, 3] :=
  (C24_history Example.toy (Example.toy_lawful _ (by decide)) 0 [c] (Example.world1 exFile) exHeader [ex19Slot] (ex19Aad (List.replicate 8 1)) (List.replicate 32 5) [1, 2, 3] exU [[112, 119]] rfl exFile_key exKey_slots (by decide)
    (fun c' hc' => by rw [List.mem_singleton.1 hc']; exact hc) ⟨fun _ _ _ _ _ _ => rfl, fun _ _ _ _ => rfl⟩ (exTold_of (n := 1) (by decide +kernel)) (by decide) exKey_body).2.1

def exAdds : List KeyCall := exPair (.add [112, 119] [9, 9] (.blake3Balloon 5)) (.add [112, 119] [7] (.argon2id 3))
def exDeletes : List KeyCall := exPair (.delete [112, 119]) (.add [112, 119] [9, 9] (.blake3Balloon 5))

/-- **C98, the full property fails (an update is lost).** Two processes add a password each, and both report success; one of the two new passwords is refused afterwards. -/
theorem C98_update_lost : ∃ (C : Crypto) (cs : List KeyCall) (d : Disk) (hd : Header) (ks : List Keyslot) (aad mk p old new new' : Bytes) (h h' : HashingAlgorithm) (order : List Nat),
    C.Lawful ∧ cs.map KeyCall.cmd = [.add old new h, .add old new' h'] ∧ (∀ c ∈ cs, c.Fits C hd.headerType.algorithm mk [old, new, new'] 0) ∧ KeyFile (d.file 0) hd ks aad ∧
    SlotsFor C hd.headerType.algorithm mk [old, new, new'] [old] ks ∧ BodyOf C hd mk aad p ((d.file 0).drop 416) ∧
    KeyReturned ((startKeys C cs d).run order) 0 (.ok ()) ∧ KeyReturned ((startKeys C cs d).run order) 1 (.ok ()) ∧
    Refuses C new (((startKeys C cs d).run order).disk.file 0) ∧ DecryptsTo C new' (((startKeys C cs d).run order).disk.file 0) p := by
  have hfit : ∀ c ∈ exAdds, c.Fits Example.toy .aes256Gcm (List.replicate 32 5) exU 0 := exPair_fits (by decide) (by decide)
  have hm0 : exCallOk ((startKeys Example.toy exAdds exKeyDisk).run exKeyTurns) 0 = true := by decide +kernel
  have hm1 : exCallOk ((startKeys Example.toy exAdds exKeyDisk).run exKeyTurns) 1 = true := by decide +kernel
  have hfile : ((startKeys Example.toy exAdds exKeyDisk).run exKeyTurns).disk.file 0 = (onFileAll Example.toy 0 [.add [112, 119] [7] (.argon2id 3)] (Example.world1 exFile)).2.data 0 := by decide +kernel
  have hopen := exAlone (c := .add [112, 119] [7] (.argon2id 3)) (by decide)
  rw [← hfile] at hopen
  refine ⟨Example.toy, exAdds, exKeyDisk, exHeader, [ex19Slot], ex19Aad (List.replicate 8 1), List.replicate 32 5, [1, 2, 3],
    [112, 119], [9, 9], [7], .blake3Balloon 5, .argon2id 3, exKeyTurns, Example.toy_lawful _ (by decide), rfl, hfit, exFile_key, exKey_slots, exKey_body, exCallOk_of hm0, exCallOk_of hm1, ?_, ?_⟩
  · exact (hopen [9, 9] (by decide)).2 (by decide)
  · exact (hopen [7] (by decide)).1 (by decide)

/-- **C98, the full property fails (a deleted password comes back).** One process deletes a password while another one adds a password with its help; both report success, and the deleted password still decrypts the file. -/
theorem C98_deleted_returns : ∃ (C : Crypto) (cs : List KeyCall) (d : Disk) (hd : Header) (ks : List Keyslot) (aad mk p old new : Bytes) (U : List Bytes) (h : HashingAlgorithm) (order : List Nat),
    C.Lawful ∧ cs.map KeyCall.cmd = [.delete old, .add old new h] ∧ (∀ c ∈ cs, c.Fits C hd.headerType.algorithm mk U 0) ∧ KeyFile (d.file 0) hd ks aad ∧
    SlotsFor C hd.headerType.algorithm mk U [old] ks ∧ BodyOf C hd mk aad p ((d.file 0).drop 416) ∧
    KeyReturned ((startKeys C cs d).run order) 0 (.ok ()) ∧ KeyReturned ((startKeys C cs d).run order) 1 (.ok ()) ∧
    DecryptsTo C old (((startKeys C cs d).run order).disk.file 0) p := by
  have hfit : ∀ c ∈ exDeletes, c.Fits Example.toy .aes256Gcm (List.replicate 32 5) exU 0 := exPair_fits (by decide) (by decide)
  have hm0 : exCallOk ((startKeys Example.toy exDeletes exKeyDisk).run exKeyTurns) 0 = true := by decide +kernel
  have hm1 : exCallOk ((startKeys Example.toy exDeletes exKeyDisk).run exKeyTurns) 1 = true := by decide +kernel
  have hfile : ((startKeys Example.toy exDeletes exKeyDisk).run exKeyTurns).disk.file 0 = (onFileAll Example.toy 0 [.add [112, 119] [9, 9] (.blake3Balloon 5)] (Example.world1 exFile)).2.data 0 := by decide +kernel
  have hopen := exAlone (c := .add [112, 119] [9, 9] (.blake3Balloon 5)) (by decide)
  rw [← hfile] at hopen
  exact ⟨Example.toy, exDeletes, exKeyDisk, exHeader, [ex19Slot], ex19Aad (List.replicate 8 1), List.replicate 32 5, [1, 2, 3],
    [112, 119], [9, 9], exU, .blake3Balloon 5, exKeyTurns, Example.toy_lawful _ (by decide), rfl, hfit, exFile_key, exKey_slots, exKey_body, exCallOk_of hm0, exCallOk_of hm1, (hopen [112, 119] (by decide)).1 (by decide)⟩

/-- One after the other: the conditions of `C98_undisturbed_partial` for the second call, and both passwords are there in the end. -/
example : 1 ∉ List.replicate 7 0 ∧ exCallOk ((startKeys Example.toy exAdds exKeyDisk).run (List.replicate 7 0)) 0 = true ∧
    (∀ xs ys, List.replicate 6 1 = xs ++ ys → ((startKeys Example.toy exAdds exKeyDisk).run (List.replicate 7 0 ++ xs)).disk.file 0 = ((startKeys Example.toy exAdds exKeyDisk).run (List.replicate 7 0)).disk.file 0) ∧
    exCallOk ((startKeys Example.toy exAdds exKeyDisk).run (List.replicate 7 0 ++ List.replicate 6 1)) 1 = false ∧
    exCallOk ((startKeys Example.toy exAdds exKeyDisk).run (List.replicate 7 0 ++ List.replicate 6 1 ++ [1])) 1 = true := by
  refine ⟨by decide, by decide +kernel, ?_, by decide +kernel, by decide +kernel⟩
  intro xs ys h
  have : (List.range 7).all (fun n => ((startKeys Example.toy exAdds exKeyDisk).run (List.replicate 7 0 ++ List.replicate n 1)).disk.file 0 = ((startKeys Example.toy exAdds exKeyDisk).run (List.replicate 7 0)).disk.file 0) = true := by
    decide +kernel
  have hx : xs = List.replicate xs.length 1 := List.eq_replicate_iff.2 ⟨rfl, fun b hb => List.eq_of_mem_replicate (h ▸ List.mem_append_left _ hb : b ∈ List.replicate 6 1)⟩
  have hl : xs.length < 7 := by have := congrArg List.length h; simp at this; omega
  rw [hx]
  simpa using List.all_eq_true.1 this xs.length (List.mem_range.2 hl)

end Volaris.Props
