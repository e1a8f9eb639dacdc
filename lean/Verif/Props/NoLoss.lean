import Verif.Proofs.NoLoss
import Verif.Props.History
/-!
# C83: histories that lose nothing
-/
namespace Volaris.Props
open Volaris.Spec Volaris.Example Volaris.Cli Volaris.Cli.Argv

/-- **C83.** Let a file hold `p`, which is not itself encrypted with the secret.  Whatever lines follow, each of which either encrypts or decrypts any file or packs any directories with the secret to a free place
(also with the request to erase what was read), or only hashes or unpacks, or does not mention a file that holds `p`, and at whatever moments they are killed: in the end there is a file from which `p` comes back by
decrypting with the secret and taking files out of archives, as often as necessary. -/
theorem C83_no_loss (C : Crypto) (hC : C.Lawful) (z : Zip) (hz : z.Lawful) (hst : OwnStart z) (secret p : Bytes) (hp : ∀ y, ¬ DecryptsTo C secret p y) (ls : List (Invocation σ)) (d d' : Disk) (hd : GoodDisk d)
    (h : CarefulHistory C z secret p ls d d') (q : Path) (i : Nat) (hq : lookDisk d q = some (.file i)) (hi : d.file i = p) : ∃ q' j, lookDisk d' q' = some (.file j) ∧ Unwraps C z secret (d'.file j) p := by
  obtain ⟨q', j, h1, h2⟩ := careful_history hC hz hst hp h hd q ⟨i, hq, by rw [hi]; exact .plain p⟩
  exact ⟨q', j, h1, h2⟩

theorem toyZip_own : OwnStart toyZip := by
  intro l
  cases l with
  | nil => simp [toyZip]
  | cons e l =>
    have : ∀ n, ∃ b t, unary n = b :: t ∧ b ≠ 0xDE := by
      intro n
      cases n with
      | zero => exact ⟨0, [], rfl, by decide⟩
      | succ n => exact ⟨1, _, rfl, by decide⟩
    obtain ⟨b, t, h1, h2⟩ := this (latin e.name).length
    show (((counted (latin e.name) ++ counted e.content) ++ _ : Bytes)).head? ≠ _
    unfold counted
    rw [h1]
    simpa using h2

/-- The small disk where only the file `z` holds 1, 2, 3. -/
def exTreasure : World := { exWorld [] [] with file := fun i => if i = 2 then [1, 2, 3] else [7] }

/-- The lines `erase a/x`, `encrypt --argon=1 z o` (killed when the input is empty) and `encrypt o n` (killed in the middle of the output). -/
def exCarefulLines : List (Invocation Bytes) :=
  [⟨exSys, false, ["erase".toList, "a/x".toList]⟩, ⟨exSys, false, ["encrypt".toList, "--argon=1".toList, "z".toList, "o".toList]⟩, ⟨exSys, false, ["encrypt".toList, "o".toList, "n".toList]⟩]

def exFirstRun : Prog Error (List String) := Cli.erase exSys { args := eraseArgs, given := [(.input, [['a', '/', 'x']])] } >>= fun _ => pure []
def exThirdRun : Prog Error (List String) := Cli.encrypt exSys { args := encryptArgs, given := [(.input, [['o']]), (.output, [['n']])] } >>= fun _ => pure []

def fresh (w : World) : World := { w with log := [] }
theorem fresh_disk (w : World) : (fresh w).disk = w.disk := rfl

/-- The machine before the second and the third line, and in the end. -/
def exMachine1 : World := fresh (exFirstRun exTreasure).2
def exMachine2 : World := fresh (stopped exEncryptRun exMachine1 4 0)
def exMachine3 : World := stopped exThirdRun exMachine2 2 3

theorem toy_alone {content y : Bytes} (h : DecryptsTo Example.toy [112, 119] content y) : ∃ v, (decryptAlone Example.toy [112, 119] content) = (.ok (), v) := by
  obtain ⟨v, h1, _⟩ := h { reader := 0, headerReader := none, writer := 1, rawKey := [112, 119] } (Example.world fun i => if i = 0 then content else []) ⟨rfl, rfl, Nat.zero_ne_one, Nat.zero_ne_one, rfl⟩ rfl
  exact ⟨v, h1⟩

theorem toy_refuses {content : Bytes} (h : (match (decryptAlone Example.toy [112, 119] content).1 with | .ok _ => true | _ => false) = false) (y : Bytes) : ¬ DecryptsTo Example.toy [112, 119] content y := by
  intro hd
  obtain ⟨v, hv⟩ := toy_alone hd
  rw [hv] at h
  cases h

theorem exElsewhere (q : Path) (hq : HoldsAt Example.toy toyZip [112, 119] [1, 2, 3] exTreasure.disk q) : ¬ Concerns (σ := Bytes) ⟨exSys, false, ["erase".toList, "a/x".toList]⟩ q := by
  rintro ⟨v, hv, hp⟩
  cases hv with
  | header h => exact absurd h (by simp)
  | word h =>
    simp only [List.tail_cons, List.mem_cons, List.not_mem_nil, or_false] at h
    subst h
    obtain ⟨i, hl, hu⟩ := hq
    have hp : [['a'], ['x']] <+: q := hp
    have hm : (q, Node.file i) ∈ exTreasure.dir := by
      unfold lookDisk at hl
      split at hl
      · cases hl
      · obtain ⟨⟨k, n⟩, h1, h2⟩ := Option.map_eq_some_iff.1 hl
        have h3 := List.find?_some h1
        simp only [decide_eq_true_eq] at h3
        cases h2; cases h3
        exact List.mem_of_find?_eq_some h1
    have hm : (q, Node.file i) ∈ ([([['a'], ['b'], ['y']], .file 1), ([['a'], ['b']], .dir), ([['a'], ['x']], .file 0), ([['a']], .dir), ([['z']], .file 2)] : List (Path × Node)) := hm
    simp only [List.mem_cons, Prod.mk.injEq, Node.file.injEq, reduceCtorEq, and_false, List.not_mem_nil, or_false, false_or] at hm
    rcases hm with ⟨rfl, rfl⟩ | ⟨rfl, rfl⟩ | ⟨rfl, rfl⟩
    · exact absurd hp (by decide)
    · have hu : Unwraps Example.toy toyZip [112, 119] [7] [1, 2, 3] := hu
      cases hu with
      | layer h _ => exact toy_refuses (by decide +kernel) _ h
      | member _ ha => rw [show toyZip.decode [7] = none by decide +kernel] at ha; cases ha
    · exact absurd hp (by decide)

theorem exCareful1 : Careful Example.toy toyZip [112, 119] (σ := Bytes) ⟨exSys, false, ["encrypt".toList, "--argon=1".toList, "z".toList, "o".toList]⟩ exMachine1 where
  build := rfl
  crypto := rfl
  zip := rfl
  line := .file (.inl rfl) (.opt (o := ⟨"argon", none, false⟩) (v := ['1']) (by decide) .attached (.file (.inr (by decide)) (.file (.inr (by decide)) .nil))) ⟨by decide, .inl rfl⟩ .name rfl
    (by decide +kernel : exMachine1.env = some [112, 119]) (by
      rintro ⟨q, n, h1, h2⟩
      have h1 : exMachine1.resolve (toPath [] ['o']) = .ok q := h1
      rw [show exMachine1.resolve (toPath [] ['o']) = .ok [['o']] by rfl] at h1
      cases h1
      rw [show exMachine1.look [['o']] = none by decide +kernel] at h2
      cases h2)
  transfers := fun k h => by
    rw [show exMachine1.sched = [] by rfl] at h
    cases h

theorem exCareful2 : Careful Example.toy toyZip [112, 119] (σ := Bytes) ⟨exSys, false, ["encrypt".toList, "o".toList, "n".toList]⟩ exMachine2 where
  build := rfl
  crypto := rfl
  zip := rfl
  line := .file (.inl rfl) (.file (.inr (by decide)) (.file (.inr (by decide)) .nil)) ⟨by decide, .inl rfl⟩ .name rfl
    (by decide +kernel : exMachine2.env = some [112, 119]) (by
      rintro ⟨q, n, h1, h2⟩
      have h1 : exMachine2.resolve (toPath [] ['n']) = .ok q := h1
      rw [show exMachine2.resolve (toPath [] ['n']) = .ok [['n']] by rfl] at h1
      cases h1
      rw [show exMachine2.look [['n']] = none by decide +kernel] at h2
      cases h2)
  transfers := fun k h => by
    rw [show exMachine2.sched = [] by rfl] at h
    cases h

example : CarefulHistory Example.toy toyZip [112, 119] [1, 2, 3] exCarefulLines exTreasure.disk exMachine3.disk := by
  have h1 := Invoked.ended (l := ⟨exSys, false, ["erase".toList, "a/x".toList]⟩) exTreasure (run := exFirstRun) rfl
  rw [← fresh_disk] at h1
  refine .elsewhere exElsewhere h1 (.killed exMachine1 (stopped exEncryptRun exMachine1 4 0) exCareful1 (run := exEncryptRun) rfl (stopped_at _ _ _ _ rfl) ?_)
  rw [← fresh_disk]
  exact .killed exMachine2 exMachine3 exCareful2 (run := exThirdRun) rfl (stopped_at _ _ _ _ rfl) (.nil _)

example : ∀ y, ¬ DecryptsTo Example.toy [112, 119] [1, 2, 3] y := toy_refuses (by decide +kernel)
example : GoodDisk exTreasure.disk := ⟨(Example.disk_ok []).distinct, (Example.disk_ok []).parents, (exSeparate [] []).allocated⟩
example : exMachine3.look [['a'], ['x']] = none ∧ exMachine3.file 2 = [] ∧ exMachine3.look [['o']] = some (.file 1000) ∧ (exMachine3.file 1000).length = 435 ∧ exMachine3.look [['n']] = some (.file 1001) := by
  refine ⟨?_, ?_, ?_, ?_, ?_⟩ <;> decide +kernel

/-- The small disk where only the file `a/x` holds 1, 2, 3; and the user will say yes. -/
def exBuried : World := { exWorld ["y\n"] [] with file := fun i => if i = 0 then [1, 2, 3] else [7] }

/-- The lines `hash a/x`, `pack --erase=1 a o` (killed when the first file is empty) and `decrypt o n`. -/
def exPackLine : Invocation Bytes := ⟨exPackSys, false, ["pack".toList, "--erase=1".toList, "a".toList, "o".toList]⟩
def exBuriedLines : List (Invocation Bytes) := [⟨exPackSys, false, ["hash".toList, "a/x".toList]⟩, exPackLine, ⟨exPackSys, false, ["decrypt".toList, "o".toList, "n".toList]⟩]

def exHashRun : Prog Error (List String) := Cli.hash exPackSys { args := hashArgs, given := [(.input, [['a', '/', 'x']])] }
def exPackingRun : Prog Error (List String) := Cli.pack exPackSys { args := packArgs, given := [(.erase, [['1']]), (.input, [['a']]), (.output, [['o']])] } >>= fun _ => pure []
def exOpeningRun : Prog Error (List String) := Cli.decrypt exPackSys { args := decryptArgs, given := [(.input, [['o']]), (.output, [['n']])] } >>= fun _ => pure []

def exBuried1 : World := fresh (exHashRun exBuried).2
def exBuried2 : World := fresh (stopped exPackingRun exBuried1 12 0)
def exBuried3 : World := (exOpeningRun exBuried2).2

theorem exCareful3 : Careful Example.toy toyZip [112, 119] exPackLine exBuried1 where
  build := rfl
  crypto := rfl
  zip := rfl
  line := .pack (before := [("erase", ['1'])]) (after := []) (wb := ["--erase=1".toList]) (wa := []) (inputs := [['a']]) (output := ['o'])
    ⟨.opt (o := ⟨"erase", none, false⟩) (by decide) .attached .nil, by decide⟩ ⟨.nil, by simp⟩ (by simp) (by intro f hf; rw [List.mem_singleton.1 hf]; exact .inr (by decide)) (.inr (by decide)) ⟨by decide, .inl rfl⟩ .name rfl
    (by decide +kernel : exBuried1.env = some [112, 119]) (by
      rintro ⟨q, n, h1, h2⟩
      have h1 : exBuried1.resolve (toPath [] ['o']) = .ok q := h1
      cases h1
      cases h2) (by
      intro q hq
      have hq : exBuried1.resolve (toPath [] ['o']) = .ok q := hq
      cases hq
      rintro ⟨f, hf, T, hT, hx⟩
      rw [List.mem_singleton] at hf
      subst hf
      have h2 : exBuried1.resolve (toPath [] ['a']) = .ok T := hT.resolve
      cases h2
      exact absurd hx (by decide))
  transfers := fun k h => by
    have h : Io.short k ∈ exBuried1.sched := h
    rw [show exBuried1.sched = [] by decide +kernel] at h
    cases h

theorem exCareful4 : Careful Example.toy toyZip [112, 119] (σ := Bytes) ⟨exPackSys, false, ["decrypt".toList, "o".toList, "n".toList]⟩ exBuried2 where
  build := rfl
  crypto := rfl
  zip := rfl
  line := .file (.inr rfl) (.file (.inr (by decide)) (.file (.inr (by decide)) .nil)) ⟨by decide, .inl rfl⟩ .name rfl
    (by decide +kernel : exBuried2.env = some [112, 119]) (by
      rintro ⟨q, n, h1, h2⟩
      have h1 : exBuried2.resolve (toPath [] ['n']) = .ok q := h1
      rw [← World.resolve_congr (w := exBuried2) (w' := { exBuried with dir := [([['o']], .file 1000), ([['a'], ['b']], .dir), ([['a'], ['x']], .file 0), ([['a']], .dir), ([['z']], .file 2)] }) (by decide +kernel)] at h1
      cases h1
      have h2 : exBuried2.look [['n']] = some n := h2
      rw [show exBuried2.look [['n']] = none by decide +kernel] at h2
      cases h2)
  transfers := fun k h => by
    have h : Io.short k ∈ exBuried2.sched := h
    rw [show exBuried2.sched = [] by decide +kernel] at h
    cases h

theorem exPacking_main : Cli.main exPackLine.sys exPackLine.debug exPackLine.argv = some exPackingRun := rfl

theorem exOpening_main : Cli.main exPackSys false ["decrypt".toList, "o".toList, "n".toList] = some exOpeningRun := rfl

example : CarefulHistory Example.toy toyZip [112, 119] [1, 2, 3] exBuriedLines exBuried.disk exBuried3.disk := by
  have h3 : CarefulHistory Example.toy toyZip [112, 119] [1, 2, 3] _ exBuried2.disk exBuried3.disk := .ended exBuried2 exCareful4 exOpening_main (.nil _)
  rw [show exBuried2.disk = (stopped exPackingRun exBuried1 12 0).disk from fresh_disk _] at h3
  have h2 := CarefulHistory.killed exBuried1 (stopped exPackingRun exBuried1 12 0) exCareful3 exPacking_main (stopped_at _ _ _ _ rfl) h3
  rw [show exBuried1.disk = (exHashRun exBuried).2.disk from fresh_disk _] at h2
  exact .looking (l := ⟨exPackSys, false, ["hash".toList, "a/x".toList]⟩) (.inl rfl) .name (Invoked.ended exBuried (run := exHashRun) rfl) h2

example : exBuried2.file 0 = [] ∧ exBuried2.look [['o']] = some (.file 1000) ∧ exBuried3.look [['n']] = some (.file 1002) ∧
    exBuried3.file 1002 = toyZip.encode [⟨"a/".toList, []⟩, ⟨"a/b/y".toList, [7]⟩, ⟨"a/b/".toList, []⟩, ⟨"a/x".toList, [1, 2, 3]⟩] := by
  refine ⟨?_, ?_, ?_, ?_⟩ <;> decide +kernel
end Volaris.Props
