import Verif.Model.Zip
/-!
# A concrete archive format

Used only by the non-vacuity examples: it meets the law assumed of the zip format and is executable by the kernel.
-/
namespace Volaris.Example

/-- A number in unary. -/
def unary (n : Nat) : Bytes := List.replicate n 1 ++ [0]

def readUnary : Bytes → Option (Nat × Bytes)
  | [] => none
  | b :: bs => if b = 0 then some (0, bs) else if b = 1 then (readUnary bs).map fun (n, r) => (n + 1, r) else none

/-- A length and that many bytes. -/
def counted (bs : Bytes) : Bytes := unary bs.length ++ bs

def readCounted (bs : Bytes) : Option (Bytes × Bytes) :=
  match readUnary bs with
  | some (n, r) => if n ≤ r.length then some (r.take n, r.drop n) else none
  | none => none

/-- Latin-1. -/
def latin (s : List Char) : Bytes := s.map fun c => UInt8.ofNat c.toNat

def unlatin (bs : Bytes) : List Char := bs.map fun b => Char.ofNat b.toNat

def zipEntryBytes (e : ZipEntry) : Bytes := counted (latin e.name) ++ counted e.content

def readMembers : Nat → Bytes → Option (List ZipMember)
  | _, [] => some []
  | 0, _ => none
  | fuel + 1, bs =>
      match readCounted bs with
      | none => none
      | some (n, r) =>
          match readCounted r with
          | none => none
          | some (c, r) => (readMembers fuel r).map ({ name := unlatin n, opens := true, content := c, sound := true } :: ·)

/-- The format: names and contents, each preceded by its length. -/
def toyZip : Zip where
  storable := fun s => s.all fun c => decide (c.toNat < 256)
  encode := fun l => l.flatMap zipEntryBytes
  decode := fun bs => readMembers bs.length bs

theorem readUnary_append (n : Nat) (r : Bytes) : readUnary (unary n ++ r) = some (n, r) := by
  induction n with
  | zero => rfl
  | succ n ih =>
    show readUnary (1 :: (unary n ++ r)) = _
    rw [readUnary, if_neg (by decide), if_pos rfl, ih]; rfl

theorem readCounted_append (bs r : Bytes) : readCounted (counted bs ++ r) = some (bs, r) := by
  unfold readCounted counted
  rw [List.append_assoc, readUnary_append]
  simp

theorem unlatin_latin (s : List Char) (h : s.all fun c => decide (c.toNat < 256)) : unlatin (latin s) = s := by
  unfold unlatin latin
  rw [List.map_map]
  have : ∀ c ∈ s, ((fun b : UInt8 => Char.ofNat b.toNat) ∘ fun c => UInt8.ofNat c.toNat) c = id c := by
    intro c hc
    have hc := of_decide_eq_true (List.all_eq_true.1 h c hc)
    show Char.ofNat (UInt8.ofNat c.toNat).toNat = c
    rw [show (UInt8.ofNat c.toNat).toNat = c.toNat from by simp; omega]
    exact Char.ofNat_toNat c
  rw [List.map_congr_left this, List.map_id]

theorem readMembers_flatMap (l : List ZipEntry) (h : ∀ e ∈ l, e.name.all fun c => decide (c.toNat < 256)) :
    ∀ fuel, l.length ≤ fuel → readMembers fuel (l.flatMap zipEntryBytes) =
      some (l.map fun e => { name := e.name, opens := true, content := e.content, sound := true }) := by
  induction l with
  | nil => intro fuel _; cases fuel <;> rfl
  | cons e l ih =>
    intro fuel hf
    cases fuel with
    | zero => simp at hf
    | succ fuel =>
      have ih := ih (fun e he => h e (List.mem_cons_of_mem _ he)) fuel (by simpa using hf)
      rw [List.flatMap_cons]
      have hne : ∃ b bs, zipEntryBytes e ++ l.flatMap zipEntryBytes = b :: bs := by
        cases hz : zipEntryBytes e ++ l.flatMap zipEntryBytes with
        | nil => simp [zipEntryBytes, counted, unary] at hz
        | cons b bs => exact ⟨b, bs, rfl⟩
      obtain ⟨b, bs, hb⟩ := hne
      rw [hb, readMembers, ← hb]
      · rw [show zipEntryBytes e = counted (latin e.name) ++ counted e.content from rfl]
        rw [List.append_assoc, readCounted_append]
        dsimp only
        rw [readCounted_append]
        dsimp only
        rw [ih]
        simp [unlatin_latin e.name (h e List.mem_cons_self)]
      · simp

theorem zipEntryBytes_pos (e : ZipEntry) : 1 ≤ (zipEntryBytes e).length := by
  simp [zipEntryBytes, counted, unary]; omega

theorem toyZip_lawful : toyZip.Lawful where
  decode_encode := by
    intro l hn h
    refine readMembers_flatMap l h _ ?_
    show l.length ≤ (l.flatMap zipEntryBytes).length
    clear h hn
    induction l with
    | nil => simp
    | cons e l ih =>
      have := zipEntryBytes_pos e
      rw [List.flatMap_cons, List.length_append, List.length_cons]
      omega

end Volaris.Example
