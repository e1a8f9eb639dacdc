import Verif.Spec.ScreenRest
import Verif.Proofs.Screen
/-!
# Lemmas for C92: the other commands
-/
namespace Volaris.Cli
open Volaris.Spec
variable {σ : Type}

theorem _root_.Volaris.Spec.Announces.weaken {key : Key} {line : String} {b : Bool} {ls : List (List Char)} (h : Announces key line true ls) : Announces key line b ls := by
  rcases h with ⟨h1, h2⟩ | h
  · exact .inl ⟨h1, fun h => by cases h2 h⟩
  · exact .inr h

theorem announce_tells (key : Key) (line : String) : Tells (fun b l => b = true ∧ Announces key line true l) (announce key line) := by
  unfold announce
  split
  · next h => exact (say_tells _).mono fun b l ⟨h1, h2⟩ => ⟨h1, .inr ⟨h2, h⟩⟩
  · next h => exact fun w => ⟨[], .nil rfl, rfl, .inl ⟨rfl, fun h' => absurd h' h⟩⟩

/-- The key and what is said about it. -/
def KeyTalk (key : Key) (line : String) (state : PasswordState) (b : Bool) (l : List (List Char)) : Prop := ∃ a k, l = a ++ k ∧ Announces key line b a ∧ AboutKey state key b k

theorem KeyTalk.nil (key : Key) (line : String) (state : PasswordState) : KeyTalk key line state false [] :=
  ⟨[], [], rfl, .inl ⟨rfl, fun _ => rfl⟩, by
    cases key with
    | generate n => exact .inl ⟨rfl, rfl⟩
    | user => intro l hl; cases hl
    | keyfile p => rfl
    | env => rfl⟩

theorem KeyTalk.weaken {key : Key} {line : String} {state : PasswordState} {b : Bool} {l : List (List Char)} (h : KeyTalk key line state true l) : KeyTalk key line state b l := by
  obtain ⟨a, k, rfl, h1, h2⟩ := h
  exact ⟨a, k, rfl, h1.weaken, AboutKey.weaken h2⟩

theorem keyTalk_tells {α : Type} {key : Key} {line : String} {state : PasswordState} (words : List (List Char)) (cwd : Path) {R : Bool → List (List Char) → Prop} {f : Bytes → Prog Error α} (hf : ∀ k, Tells R (f k))
    {Q : Bool → List (List Char) → Prop} (hQ : ∀ l, KeyTalk key line state false l → Q false l) (hR : ∀ b l l', KeyTalk key line state true l → R b l' → Q b (l ++ l')) :
    Tells Q (announce key line >>= fun _ => getSecret words cwd key state >>= f) := by
  intro w
  obtain ⟨a, s1, h1, h2⟩ := announce_tells key line w
  rcases he : announce key line w with ⟨_ | _ | _, w1⟩ <;> rw [he] at s1 h1
  · obtain ⟨k, s2, h3⟩ := getSecret_tells words cwd key state w1
    rw [Prog.bind_ok he]
    rcases he2 : getSecret words cwd key state w1 with ⟨x | e | e, w2⟩ <;> rw [he2] at s2 h3
    · rw [Prog.bind_ok he2]
      obtain ⟨l', s3, h4⟩ := hf x w2
      exact ⟨(a ++ k) ++ l', (s1.trans s2).trans s3, hR _ _ _ ⟨a, k, rfl, h2, h3⟩ h4⟩
    · rw [Prog.bind_err he2]; exact ⟨a ++ k, s1.trans s2, hQ _ ⟨a, k, rfl, h2.weaken, h3⟩⟩
    · rw [Prog.bind_abort he2]; exact ⟨a ++ k, s1.trans s2, hQ _ ⟨a, k, rfl, h2.weaken, h3⟩⟩
  · cases h1
  · cases h1

theorem twoKeys_tells {s : Sys σ} {params : KeyManipulationParams} {cmd : Prog Error Unit} (hc : TwoKeys s params cmd) :
    Tells (fun b l => ∃ x y, l = x ++ y ∧ KeyTalk params.keyOld "[i] Please enter your old key below" .direct b x ∧ KeyTalk params.keyNew "[i] Please enter your new key below" .validate b y) cmd := by
  have key : ∀ (input : List Char) (f : Nat → Bytes → Bytes → Prog Error Unit), (∀ h a b, Wordless (f h a b)) →
      Tells (fun b l => ∃ x y, l = x ++ y ∧ KeyTalk params.keyOld "[i] Please enter your old key below" .direct b x ∧ KeyTalk params.keyNew "[i] Please enter your new key below" .validate b y)
        (openV5 s input >>= fun h => announce params.keyOld "[i] Please enter your old key below" >>= fun _ => getSecret s.words s.cwd params.keyOld .direct >>= fun a =>
          announce params.keyNew "[i] Please enter your new key below" >>= fun _ => getSecret s.words s.cwd params.keyNew .validate >>= fun b => f h a b) := by
    intro input f hf
    refine .after (openV5_still s input).wordless (fun h => ?_) ⟨[], [], rfl, .nil _ _ _, .nil _ _ _⟩
    refine keyTalk_tells (R := KeyTalk params.keyNew "[i] Please enter your new key below" .validate) _ _ (fun a => ?_) (fun l h => ⟨l, [], by simp, h, .nil _ _ _⟩) fun b l l' h g => ⟨l, l', rfl, h.weaken, g⟩
    exact keyTalk_tells (R := fun _ l => l = []) _ _ (fun b => .of_wordless (hf h a b)) (fun _ h => h) fun b l l' h g => by rw [g, List.append_nil]; exact h.weaken
  cases hc with
  | add input => exact key input _ fun h a b => .mapErr _ (within_wordless (KeyOps.add_within _ _))
  | change input => exact key input _ fun h a b => .mapErr _ (within_wordless (KeyOps.change_within _ _))

theorem oneKey_tells {s : Sys σ} {k : Key} {cmd : Prog Error Unit} (hc : OneKey s k cmd) : Tells (KeyTalk k "[i] Please enter your key below" .direct) cmd := by
  have key : ∀ (input : List Char) (f : Nat → Bytes → Prog Error Unit), (∀ h a, Wordless (f h a)) →
      Tells (KeyTalk k "[i] Please enter your key below" .direct)
        (openV5 s input >>= fun h => announce k "[i] Please enter your key below" >>= fun _ => getSecret s.words s.cwd k .direct >>= fun a => f h a) := by
    intro input f hf
    refine .after (openV5_still s input).wordless (fun h => ?_) (.nil _ _ _)
    exact keyTalk_tells (R := fun _ l => l = []) _ _ (fun b => .of_wordless (hf h b)) (fun _ h => h) fun b l l' h g => by rw [g, List.append_nil]; exact h.weaken
  cases hc with
  | delete input => exact key input _ fun h a => .mapErr _ (within_wordless (KeyOps.delete_within _ _ _))
  | verify input => exact key input _ fun h a => .mapErr _ (within_wordless (verify_within _ _ _))

theorem headerRestore_wordless (s : Sys σ) (input output : List Char) : Wordless (headerRestore s input output) :=
  .bind (.readInput _) fun _ => .bind (.mapErr _ (.openFile _)) fun _ => .bind (.streamOf _) fun _ => .mapErr _ (within_wordless (HeaderOps.restore_within _ _))

theorem headerStrip_wordless (s : Sys σ) (input : List Char) : Wordless (headerStrip s input) :=
  .bind (.mapErr _ (.openFile _)) fun _ => .mapErr _ (within_wordless (HeaderOps.strip_within _))

theorem headerDump_shows (s : Sys σ) (input output : List Char) (force : ForceMode) (w : World) :
    ∃ l, Shows l w (headerDump s input output force w).2 ∧ (l = [] ∨ AsksOnce (overwriteQuestion output) l) ∧ (l ≠ [] → Occupied w (toPath s.cwd output) ∧ force = .prompt) ∧
      (good (headerDump s input output force w).1 = true → Occupied w (toPath s.cwd output) → force = .prompt → l ≠ []) := by
  unfold headerDump
  have hw := Wordless.readInput (toPath s.cwd input) w
  have hl := (readInput_looks w.nextFd (toPath s.cwd input) w (Nat.le_refl _)).1
  rcases he : readInput (toPath s.cwd input) w with ⟨i | e | e, w1⟩ <;> rw [he] at hw hl
  · rw [Prog.bind_ok he]
    obtain ⟨l, h1, h2, h3⟩ := consent_shows s.cwd output force w1
    have ho : Occupied w1 (toPath s.cwd output) ↔ Occupied w (toPath s.cwd output) := occupied_congr hl.dir
    have hrest : ∀ _ : Unit, Tells (fun _ l => l = []) (openOutput (toPath s.cwd output) >>= fun o => streamOf i >>= fun r => streamOf o >>= fun wr => (HeaderOps.dump r wr).mapErr .headerOp >>= fun _ =>
        (Storage.flushFile o).mapErr .storage) := fun _ => .of_wordless (.bind (.openOutput _) fun o => .bind (.streamOf _) fun _ => .bind (.streamOf _) fun _ =>
          .bind (.mapErr _ (within_wordless (HeaderOps.dump_within _ _))) fun _ => .mapErr _ (.flushFile _))
    have h1 : Shows l w (consent s.cwd output force w1).2 := by unfold Shows at h1 ⊢; rw [h1, hw]
    rcases hc : consent s.cwd output force w1 with ⟨x | e | e, w2⟩ <;> rw [hc] at h1
    · rw [Prog.bind_ok hc]
      obtain ⟨l', g1, rfl⟩ := hrest x w2
      exact ⟨l, by simpa using h1.trans g1, h2, fun h => ⟨ho.1 (h3.1 h).1, (h3.1 h).2⟩, fun _ o f => h3.2 ⟨ho.2 o, f⟩⟩
    · rw [Prog.bind_err hc]; exact ⟨l, h1, h2, fun h => ⟨ho.1 (h3.1 h).1, (h3.1 h).2⟩, fun h => by cases h⟩
    · rw [Prog.bind_abort hc]; exact ⟨l, h1, h2, fun h => ⟨ho.1 (h3.1 h).1, (h3.1 h).2⟩, fun h => by cases h⟩
  · rw [Prog.bind_err he]; exact ⟨[], .nil hw, .inl rfl, fun h => absurd rfl h, fun h => by cases h⟩
  · rw [Prog.bind_abort he]; exact ⟨[], .nil hw, .inl rfl, fun h => absurd rfl h, fun h => by cases h⟩

end Volaris.Cli
