import Verif.Proofs.History
/-!
# C82: a history of command lines
-/
namespace Volaris.Props
open Volaris.Spec Volaris.Cli Volaris.Cli.Argv

/-- **C82, what is there.** Whatever lines are given to the tool, one after the other, in whatever state of the machine, and whichever of them fail or are killed: an entry of the disk that none of the lines mentions, neither
itself nor a directory above it, is still there. -/
theorem C82_entries (ls : List (Invocation σ)) (d d' : Disk) (hd : GoodDisk d) (h : History ls d d') (q : Path) (n : Node) (hn : lookDisk d q = some n) (hq : ∀ l ∈ ls, ¬ Concerns l q) : lookDisk d' q = some n := by
  rcases (history_within h hd).2.1 q hq with e | ⟨e, _⟩
  · rw [e]; exact hn
  · rw [hn] at e; cases e

/-- **C82, contents.** A file none of whose names is mentioned has its content. -/
theorem C82_contents (ls : List (Invocation σ)) (d d' : Disk) (hd : GoodDisk d) (h : History ls d d') (q : Path) (i : Nat) (hi : lookDisk d q = some (.file i))
    (hq : ∀ q', lookDisk d q' = some (.file i) → ∀ l ∈ ls, ¬ Concerns l q') : lookDisk d' q = some (.file i) ∧ d'.file i = d.file i :=
  ⟨C82_entries ls d d' hd h q _ hi (hq q hi), (history_within h hd).2.2.2 i (hd.allocated q i hi) hq⟩

/-- **C82, what is not there.** Where nothing was and no line mentions the place, nothing is, unless it is a place for temporary files: there may be a file. -/
theorem C82_litter (ls : List (Invocation σ)) (d d' : Disk) (hd : GoodDisk d) (h : History ls d d') (q : Path) (hn : lookDisk d q = none) (hq : ∀ l ∈ ls, ¬ Concerns l q) :
    lookDisk d' q = none ∨ ∃ l ∈ ls, TempPlace l.sys.tmp q ∧ ∃ j, lookDisk d' q = some (.file j) := by
  rcases (history_within h hd).2.1 q hq with e | ⟨_, e⟩
  · exact .inl (e.trans hn)
  · exact .inr e

/-- **C82, no links.** No file gets another name: a name that leads to a file of the beginning has always led to it. -/
theorem C82_names (ls : List (Invocation σ)) (d d' : Disk) (hd : GoodDisk d) (h : History ls d d') (q q' : Path) (i : Nat) (hi : lookDisk d q = some (.file i)) (hq : lookDisk d' q' = some (.file i)) :
    lookDisk d q' = some (.file i) := (history_within h hd).2.2.1 q' i hq (hd.allocated q i hi)

/-- **C82, the tree.** The disk stays a tree: every entry is in a directory, no name is there twice, no file number is given twice. -/
theorem C82_tree (ls : List (Invocation σ)) (d d' : Disk) (hd : GoodDisk d) (h : History ls d d') : GoodDisk d' := (history_within h hd).1

/-- The lines `encrypt --argon=1 z o`, `erase o` and `frobnicate a`. -/
def exLines : List (Invocation Bytes) :=
  [⟨exSys, false, ["encrypt".toList, "--argon=1".toList, "z".toList, "o".toList]⟩, ⟨exSys, false, ["erase".toList, "o".toList]⟩, ⟨exSys, true, ["frobnicate".toList, "a".toList]⟩]

def exEncryptRun : Prog Error (List String) :=
  Cli.encrypt exSys { args := encryptArgs, given := [(.argon, [['1']]), (.input, [['z']]), (.output, [['o']])] } >>= fun _ => pure []

def exEraseRun : Prog Error (List String) := Cli.erase exSys { args := eraseArgs, given := [(.input, [['o']])] } >>= fun _ => pure []

/-- After the first line, which is killed when the input is empty but has its name. -/
def exHistory1 : World := stopped exEncryptRun (exWorld [] []) 4 0

example : History exLines (exWorld [] []).disk (exEraseRun exHistory1).2.disk :=
  .cons (.killed (exWorld [] []) exHistory1 (run := exEncryptRun) rfl (stopped_at _ _ _ _ rfl)) (.cons (.ended exHistory1 (run := exEraseRun) rfl) (.cons (.refused _ rfl) (.nil _)))

example : lookDisk exHistory1.disk [['z']] = some (.file 2) ∧ exHistory1.file 2 = [] ∧ lookDisk exHistory1.disk [['o']] = some (.file 1000) ∧ (exHistory1.file 1000).length = 435 ∧
    lookDisk (exEraseRun exHistory1).2.disk [['o']] = none :=
  ⟨by decide +kernel, by decide +kernel, by decide +kernel, by decide +kernel, by decide +kernel⟩

example : GoodDisk (exWorld [] []).disk :=
  ⟨(Example.disk_ok []).distinct, (Example.disk_ok []).parents, (exSeparate [] []).allocated⟩

theorem exConcerns : ¬ Concerns (σ := Bytes) ⟨exSys, false, ["encrypt".toList, "--argon=1".toList, "z".toList, "o".toList]⟩ [['a'], ['x']] := by
  rintro ⟨v, hv, hp⟩
  cases hv with
  | word h =>
    simp only [List.tail_cons, List.mem_cons, List.not_mem_nil, or_false] at h
    rcases h with rfl | rfl | rfl <;> exact absurd hp (by decide)
  | header h => exact absurd h (by simp)

end Volaris.Props
