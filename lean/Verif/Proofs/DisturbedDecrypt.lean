import Verif.Spec.DisturbedDecrypt
import Verif.Proofs.DisturbedCmd
import Verif.Proofs.Forgery
/-!
# Decryption while other programs change the disk
-/
namespace Volaris.Dist
open Volaris.Spec Volaris.Cli
variable {ε ε' α β σ : Type}

/-! ## Headers whose version bytes were read at another moment -/

/-- The header and the associated data were made of some bytes for some version, whose code need not be in the bytes. -/
def Parsed (h : Header) (aad : Bytes) : Prop :=
  ∃ v full, v ≠ .v1 ∧ v ≠ .v2 ∧ full.length = v.size ∧ parseHeader v full = .ok (h, aad)

theorem drop_patch (v : HeaderVersion) (full : Bytes) : (versionCode v ++ full.drop 2).drop 2 = full.drop 2 := by
  rw [List.drop_append_of_le_length (by simp), List.drop_of_length_le (by simp)]; rfl

theorem slice_patch (v : HeaderVersion) (full : Bytes) (h2 : 2 ≤ full.length) (i n : Nat) (h : 2 ≤ i) : slice (versionCode v ++ full.drop 2) i n = slice full i n := by
  obtain ⟨j, rfl⟩ := Nat.exists_eq_add_of_le h
  simp only [slice, ← List.drop_drop, drop_patch]

theorem take_patch (v : HeaderVersion) (full : Bytes) (n : Nat) : (versionCode v ++ full.drop 2).take (2 + n) = versionCode v ++ (full.take (2 + n)).drop 2 := by
  rw [List.take_append, List.drop_take, List.take_of_length_le (by simp)]
  simp

/-- Writing the code of the version into the bytes changes the associated data, if at all, in the same two bytes. -/
theorem Parsed.patch {h : Header} {aad : Bytes} (hp : Parsed h aad) :
    ∃ full aad', IsHeader full h aad' ∧ h.headerType.version ≠ .v1 ∧ h.headerType.version ≠ .v2 ∧ aad.length = aad'.length ∧ aad' = versionCode h.headerType.version ++ aad.drop 2 := by
  obtain ⟨v, full, h1, h2, hl, hh⟩ := hp
  have hs2 : 2 ≤ full.length := by rw [hl, size_eq]; cases v <;> decide
  have hlen : (versionCode v ++ full.drop 2).length = v.size := by simp; omega
  have e : parseHeader v (versionCode v ++ full.drop 2) = .ok (h, aadOfBytes h.headerType (versionCode v ++ full.drop 2)) ∧ aad = aadOfBytes h.headerType full ∧ h.headerType.version = v := by
    unfold parseHeader at hh ⊢
    rw [drop_patch]
    simp only [rd_bind_ok, ofOption_bind_ok] at hh ⊢
    obtain ⟨a1, al, a2, a3, m, a4, hh⟩ := hh
    cases v
    all_goals
      simp only [rd_bind_ok, parseKeyslots_bind_ok, Res.pure_eq, Res.ok.injEq, Prod.mk.injEq] at hh ⊢
    · exact absurd rfl h1
    · exact absurd rfl h2
    · obtain ⟨b1, b2, b3, b4, rfl, rfl⟩ := hh
      exact ⟨⟨a1, al, a2, a3, m, a4, b1, b2, b3, b4, rfl, rfl⟩, rfl, rfl⟩
    · obtain ⟨b1, b2, b3, b4, b5, b6, rfl, rfl⟩ := hh
      exact ⟨⟨a1, al, a2, a3, m, a4, b1, b2, b3, b4, b5, b6, rfl, rfl⟩, rfl, rfl⟩
    · obtain ⟨b1, b2, b3, b4, rfl, rfl⟩ := hh
      exact ⟨⟨a1, al, a2, a3, m, a4, b1, b2, b3, b4, rfl, rfl⟩, rfl, rfl⟩
  obtain ⟨e1, e2, e3⟩ := e
  have hi := (parseHeader_iff (versionCode v ++ full.drop 2) v h _ (by rw [List.take_append_of_le_length (by simp), List.take_of_length_le (by simp), parseVersion_iff]) (by omega)).1 (by rw [List.take_of_length_le (by omega)]; exact e1)
  have hdrop : ∀ k, (versionCode v ++ full.drop 2).drop (96 + k) = full.drop (96 + k) := fun k => by
    rw [show (96 + k : Nat) = 2 + (94 + k) from by omega, ← List.drop_drop, drop_patch, List.drop_drop]
  refine ⟨_, _, hi.2, by rw [e3]; exact h1, by rw [e3]; exact h2, ?_, ?_⟩ <;> rw [e2] <;> simp only [aadOfBytes, e3]
  · have : ∀ n, (full.take (2 + n)).length = ((versionCode v ++ full.drop 2).take (2 + n)).length := fun n => by simp only [List.length_take]; omega
    cases v <;> simp only [] <;> first | rfl | skip
    · omega
    · rw [List.length_append, List.length_append, hdrop, show (full.take 48).length = _ from this 46]
    · exact this 30
  · cases v <;> simp only [] <;> first | contradiction | skip
    · have h48 : 2 ≤ (full.take 48).length := by rw [List.length_take, hl]; decide
      rw [hdrop, show List.take 48 (versionCode .v4 ++ full.drop 2) = _ from take_patch .v4 full 46, List.drop_append_of_le_length h48, List.append_assoc]
    · exact take_patch .v5 full 30

/-- How long the associated data is. -/
def aadLength (v : HeaderVersion) (a : Algorithm) : Nat :=
  match v with
  | .v1 | .v2 => 0
  | .v3 => 64
  | .v4 => 48 + (32 - nonceLength a .memoryMode)
  | .v5 => 32

theorem aad_length {bs : Bytes} {h : Header} {aad : Bytes} (hi : IsHeader bs h aad) : aad.length = aadLength h.headerType.version h.headerType.algorithm := by
  have h1 := hi.aad
  have h2 := hi.size
  have hn : nonceLength h.headerType.algorithm .memoryMode ≤ 24 := by cases h.headerType.algorithm <;> decide
  rw [h1]
  cases hv : h.headerType.version <;> rw [hv] at h2 <;> simp only [headerSize] at h2 <;> simp only [aadLength]
  · rfl
  · rfl
  · rw [slice_length _ _ _ (by omega)]
  · rw [List.length_append, slice_length _ _ _ (by omega), slice_length _ _ _ (by omega)]
  · rw [slice_length _ _ _ (by omega)]

theorem aadLength_version {v v' : HeaderVersion} {a a' : Algorithm} (h : aadLength v a = aadLength v' a') (h1 : v ≠ .v1) (h2 : v ≠ .v2) : v' = v := by
  cases v <;> cases v' <;> cases a <;> cases a' <;> first | rfl | contradiction | (exact absurd h (by decide))

/-- If the associated data is that of a header, the version was right. -/
theorem Parsed.isHeader {h g : Header} {aad bs : Bytes} (hp : Parsed h aad) (hg : IsHeader bs g aad) :
    ∃ full, IsHeader full h aad ∧ h.headerType.version ≠ .v1 ∧ h.headerType.version ≠ .v2 := by
  obtain ⟨full, aad', hi, h1, h2, hl, ha⟩ := hp.patch
  have hv : g.headerType.version = h.headerType.version := aadLength_version (by rw [← aad_length hi, ← aad_length hg, hl]) h1 h2
  have ht := (aad_type hg (by rw [hv]; exact ⟨h1, h2⟩)).1
  have h2' : aad.take 2 = versionCode h.headerType.version := by
    have := congrArg (List.take 2) ht
    rw [List.append_assoc, List.take_left' (versionCode_length _), hv] at this
    rw [← this]
    simp only [slice, List.drop_zero, List.take_take]; rfl
  refine ⟨full, ?_, h1, h2⟩
  rw [← h2', List.take_append_drop] at ha
  rw [← ha]; exact hi

theorem Parsed.aad_ne {h : Header} {aad : Bytes} (hp : Parsed h aad) : aad ≠ [] := by
  obtain ⟨full, aad', hi, h1, h2, hl, ha⟩ := hp.patch
  intro e
  have := aad_length hi
  rw [← hl, e] at this
  revert this h1 h2
  cases h.headerType.version <;> cases h.headerType.algorithm <;> decide

/-! ## One block -/

section
variable {C : Crypto} {made : Made → Prop} {pw : Bytes} {ds : List Disk} {h : Header} {aad mk : Bytes}

/-- What opens was made for a file with this header. -/
theorem opens_made (hC : C.Lawful) (hm : ProperlyMade C made) (hp : Parsed h aad) (hr : Recovers C pw h mk) (nf : NothingForged C made pw ds)
    {d : Disk} {i : Nat} {c n m : Bytes} (hd : d ∈ ds) (hc : c <:+: d.file i) (hdec : C.dec h.headerType.algorithm mk n aad c = some m) :
    ∃ g, made g ∧ g.key = mk ∧ g.aad = aad ∧ g.header.headerType = h.headerType ∧ g.header.nonce = h.nonce ∧
      match h.headerType.mode with
      | .memoryMode => m = g.plain
      | .streamMode => ∃ j last, GenuineChunk g.plain j last m ∧ n = blockNonce h.nonce j last := by
  obtain ⟨g, hg, -, hk, ha, m', henc, hb⟩ := nf d hd i c hc h mk hr n aad m hp.aad_ne hdec
  simp only at hk ha henc hb
  obtain ⟨bs, hi⟩ := hm.header g hg
  rw [← ha] at hi
  obtain ⟨full, hf, h1, h2⟩ := hp.isHeader hi
  obtain ⟨ht, hn⟩ := same_type hf ⟨h1, h2⟩ hi
  have hmm : m = m' := by
    have := hC.dec_enc _ _ _ _ _ _ henc
    rw [hdec] at this
    exact Option.some.inj this
  refine ⟨g, hg, hk.symm, ha.symm, ht.symm, hn.symm, ?_⟩
  rw [← ht] at hb
  cases hmode : h.headerType.mode <;> simp only [hmode] at hb ⊢
  · rw [hmm]; exact hb.2
  · obtain ⟨j, last, hj, hn'⟩ := hb
    exact ⟨j, last, by rw [hmm]; exact hj, by rw [hn]; exact hn'⟩

/-- In stream mode: what opens as block `i` is that block of the file. -/
theorem opens_block (hC : C.Lawful) (hm : ProperlyMade C made) (hp : Parsed h aad) (hr : Recovers C pw h mk) (nf : NothingForged C made pw ds) (hmode : h.headerType.mode = .streamMode)
    {d : Disk} {i k : Nat} {last : Bool} {c m : Bytes} (hd : d ∈ ds) (hc : c <:+: d.file k) (hle : i ≤ C.ctrMax) (hdec : C.dec h.headerType.algorithm mk (streamNonce h.nonce i last) aad c = some m) :
    ∃ g, made g ∧ g.key = mk ∧ g.aad = aad ∧ GenuineChunk g.plain i last m := by
  obtain ⟨g, hg, hk, ha, ht, hn, hb⟩ := opens_made hC hm hp hr nf hd hc hdec
  simp only [hmode] at hb
  obtain ⟨j, l, hj, e⟩ := hb
  have hjm : j ≤ C.ctrMax := by
    have := hm.blocks g hg (by rw [ht]; exact hmode)
    rcases hj.2 with ⟨_, h⟩ | ⟨_, h⟩ <;> omega
  have hlt := hC.ctr_lt
  rw [← streamNonce_eq] at e
  obtain ⟨_, rfl, rfl⟩ := streamNonce_inj rfl (by omega) (by omega) e
  exact ⟨g, hg, hk, ha, hj⟩

/-- What has been written when `i` blocks were decrypted. -/
def Sofar (made : Made → Prop) (mk aad : Bytes) (i : Nat) (q : Bytes) : Prop :=
  (q = [] ∧ i = 0) ∨ ∃ f, made f ∧ f.key = mk ∧ f.aad = aad ∧ q = f.plain.take (i * blockLen) ∧ i * blockLen ≤ f.plain.length

theorem chunk_next (p : Bytes) (i : Nat) : p.take (i * blockLen) ++ chunk p i = p.take ((i + 1) * blockLen) := by
  rw [chunk, Nat.add_mul, Nat.one_mul, List.take_add]

theorem chunk_last (p : Bytes) : p.take (p.length / blockLen * blockLen) ++ chunk p (p.length / blockLen) = p := by
  rw [chunk_next, List.take_of_length_le]
  have := Nat.div_add_mod p.length blockLen
  have := Nat.mod_lt p.length (show 0 < blockLen by decide)
  rw [Nat.add_mul, Nat.mul_comm]; omega

theorem Sofar.next (hm : ProperlyMade C made) {i : Nat} {last : Bool} {q m : Bytes} (hs : Sofar made mk aad i q) {g : Made} (hg : made g) (hk : g.key = mk) (ha : g.aad = aad) (hc : GenuineChunk g.plain i last m) :
    q ++ m <+: g.plain ∧ (last = false → Sofar made mk aad (i + 1) (q ++ m)) ∧ (last = true → q ++ m = g.plain) := by
  have hq : q = g.plain.take (i * blockLen) := by
    rcases hs with ⟨rfl, rfl⟩ | ⟨f, hf, hfk, hfa, rfl, -⟩
    · simp
    · rw [hm.fresh f g hf hg (by rw [hfk, hk]) (by rw [hfa, ha])]
  obtain ⟨rfl, hc⟩ := hc
  refine ⟨by rw [hq, chunk_next]; exact List.take_prefix _ _, fun hl => .inr ⟨g, hg, hk, ha, by rw [hq, chunk_next], ?_⟩, fun hl => ?_⟩
  · rcases hc with ⟨-, h⟩ | ⟨h, -⟩
    · exact Nat.le_trans (Nat.mul_le_mul_right _ h) (Nat.div_mul_le_self _ _)
    · rw [hl] at h; cases h
  · rcases hc with ⟨h, -⟩ | ⟨-, h⟩
    · rw [hl] at h; cases h
    · rw [hq, h, chunk_last]

end

/-! ## Steps and stages -/

/-- How far a decryption is: nothing written yet; `q` written to file `o`; finished. -/
inductive Stage where
  | opening
  | laying (o : Nat) (q : Bytes)
  | erasing

variable {D : Disk → Prop} {made : Made → Prop} {er : Prop} {out : Disk → Disk → Nat → Prop}

/-- The bytes are the plaintext of a file, or a beginning of one. -/
def Whole (made : Made → Prop) (q : Bytes) : Prop := ∃ f, made f ∧ q = f.plain
def Part (made : Made → Prop) (q : Bytes) : Prop := q = [] ∨ ∃ f, made f ∧ q <+: f.plain

/-- What a step can do at each stage. -/
inductive Goes (made : Made → Prop) (er : Prop) (out : Disk → Disk → Nat → Prop) : Stage → Disk → Disk → Stage → Prop
  | opening {d d' : Disk} : (∀ i, d'.file i = d.file i ∨ d'.file i = []) → Goes made er out .opening d d' .opening
  | output {d d' : Disk} {o : Nat} : (∀ i, d'.file i = d.file i ∨ d'.file i = []) → d'.file o = [] → out d d' o → Goes made er out .opening d d' (.laying o [])
  | idle {d d' : Disk} {o : Nat} {q : Bytes} : d'.file = d.file → Goes made er out (.laying o q) d d' (.laying o q)
  | put {d d' : Disk} {o : Nat} {q b : Bytes} : Part made (q ++ b) → d'.file o = writeAt (d.file o) q.length b → (∀ i, i ≠ o → d'.file i = d.file i) → Goes made er out (.laying o q) d d' (.laying o (q ++ b))
  | last {d d' : Disk} {o : Nat} {q : Bytes} : er → Whole made q → Goes made er out (.laying o q) d d' .erasing
  | erasing {d d' : Disk} : Goes made er out .erasing d d' .erasing

/-- Every step on a disk in `D` is one that the stage allows, and `Q` holds at the end. -/
def Ob (D : Disk → Prop) (made : Made → Prop) (er : Prop) (out : Disk → Disk → Nat → Prop) (Q : α → World → Stage → Prop) : Thr ε α → World → Stage → Prop
  | .done r, a, s => ∀ y, r = .ok y → Q y a s
  | .step eff k, a, s => ∀ d, D d → ∃ s', Goes made er out s d (eff (a.on d)).disk s' ∧ Ob D made er out Q (k (a.on d)) (eff (a.on d)) s'

namespace Ob
variable {Q : α → World → Stage → Prop}

theorem mono {Q' : α → World → Stage → Prop} (hq : ∀ y w s, Q y w s → Q' y w s) : ∀ {t : Thr ε α} {a : World} {s : Stage}, Ob D made er out Q t a s → Ob D made er out Q' t a s := by
  intro t
  induction t with
  | done r => intro a s h y hy; exact hq _ _ _ (h y hy)
  | step eff k ih => intro a s h d hd; obtain ⟨s', h1, h2⟩ := h d hd; exact ⟨s', h1, ih _ h2⟩

theorem bind {f : α → Thr ε β} {Q' : β → World → Stage → Prop} (hf : ∀ y w s, Q y w s → Ob D made er out Q' (f y) w s) : ∀ {t : Thr ε α} {a : World} {s : Stage}, Ob D made er out Q t a s → Ob D made er out Q' (t >>= f) a s := by
  intro t
  rw [Thr.bind_eq]
  induction t with
  | done r =>
    intro a s h
    cases r with
    | ok y => exact hf y a s (h y rfl)
    | err e => exact fun _ h => nomatch h
    | abort e => exact fun _ h => nomatch h
  | step eff k ih => intro a s h d hd; obtain ⟨s', h1, h2⟩ := h d hd; exact ⟨s', h1, ih _ h2⟩

theorem mapErr {f : ε → ε'} : ∀ {t : Thr ε α} {a : World} {s : Stage}, Ob D made er out Q t a s → Ob D made er out Q (t.mapErr f) a s := by
  intro t
  induction t with
  | done r => intro a s h y hy; exact h y (by cases r <;> cases hy; rfl)
  | step eff k ih => intro a s h d hd; obtain ⟨s', h1, h2⟩ := h d hd; exact ⟨s', h1, ih _ h2⟩

theorem atom {x : Prog ε α} {a : World} {s : Stage} (h : ∀ d, D d → ∃ s', Goes made er out s d (x (a.on d)).2.disk s' ∧ ∀ y, (x (a.on d)).1 = .ok y → Q y (x (a.on d)).2 s') : Ob D made er out Q (Thr.atom x) a s := h

theorem atomErr {x : Prog ε α} {f : ε → ε'} {a : World} {s : Stage} (h : Ob D made er out Q (Thr.atom x) a s) : Ob D made er out Q (Thr.atom (x.mapErr f)) a s := by
  have e : Thr.atom (x.mapErr f) = (Thr.atom x).mapErr f := by
    unfold Thr.atom Thr.mapErr
    congr 1 <;> funext w
    · rw [Prog.mapErr_run]; rcases x w with ⟨r, w'⟩; cases r <;> rfl
    · unfold Thr.mapErr; rw [Prog.mapErr_run]; rcases x w with ⟨r, w'⟩; cases r <;> rfl
  rw [e]; exact h.mapErr

theorem pure {y : α} {a : World} {s : Stage} (h : Q y a s) : Ob D made er out Q (Pure.pure y : Thr ε α) a s := fun _ hy => by cases hy; exact h
theorem done {r : Res ε α} {a : World} {s : Stage} (h : ∀ y, r = .ok y → Q y a s) : Ob D made er out Q (.done r) a s := h
theorem fail {e : ε} {a : World} {s : Stage} : Ob D made er out Q (.done (.err e)) a s := fun _ h => nomatch h
theorem abort {e : Abort} {a : World} {s : Stage} : Ob (ε := ε) D made er out Q (.done (.abort e)) a s := fun _ h => nomatch h

theorem lift {r : Res ε α} {f : α → Thr ε β} {Q' : β → World → Stage → Prop} {a : World} {s : Stage} (h : ∀ y, r = .ok y → Ob D made er out Q' (f y) a s) : Ob D made er out Q' (.done r >>= f) a s :=
  bind (Q := fun y w s' => r = .ok y ∧ w = a ∧ s' = s) (fun y w s' hy => by obtain ⟨e, rfl, rfl⟩ := hy; exact h y e) (done fun _ hy => ⟨hy, rfl, rfl⟩)

theorem erasing : ∀ {t : Thr ε α} {a : World}, Ob D made er out (fun _ _ s => s = .erasing) t a .erasing := by
  intro t
  induction t with
  | done r => intro a y _; rfl
  | step eff k ih => intro a d _; exact ⟨.erasing, .erasing, ih _⟩

end Ob

/-- A stage of writing, or before: a step that changes no file leaves the stage as it is. -/
def Stage.Early : Stage → Prop
  | .erasing => False
  | _ => True

theorem Goes.still {s : Stage} {d d' : Disk} (h : s.Early) (hf : d'.file = d.file) : Goes made er out s d d' s := by
  cases s with
  | opening => exact .opening fun i => .inl (by rw [hf])
  | laying o q => exact .idle hf
  | erasing => exact h.elim

/-- From the stages to what the steps are. -/
theorem Ob.laid {Q : Unit → World → Stage → Prop} (hQ : ∀ y w s, Q y w s → s = .erasing ∨ ∃ o q, s = .laying o q ∧ Whole made q) (o : Nat) : ∀ (ds : List Disk) {t : Thr Error Unit} {a : World} {q : Bytes}, (∀ d ∈ ds, D d) →
    Ob D made er out Q t a (.laying o q) → Part made q → ∃ during afterwards q', Proc.among ds ⟨a, t⟩ = during ++ afterwards ∧ Lays o q.length q' during ∧ Part made (q ++ q') ∧
      (afterwards ≠ [] → er ∧ Whole made (q ++ q')) ∧ ((Proc.after ds ⟨a, t⟩).rest = .done (.ok ()) → Whole made (q ++ q'))
  | ds, .done r, a, q, _, h, hp => by
    refine ⟨[], [], [], by cases ds <;> rfl, .nil, by rwa [List.append_nil], fun h => absurd rfl h, fun e => ?_⟩
    have e : r = .ok () := by cases ds <;> (injection e)
    rcases hQ _ _ _ (h () e) with h | ⟨o', q', h, hw⟩
    · cases h
    · cases h; rwa [List.append_nil]
  | [], .step eff k, a, q, _, _, hp => ⟨[], [], [], rfl, .nil, by rwa [List.append_nil], fun h => absurd rfl h, fun e => nomatch e⟩
  | d :: ds, .step eff k, a, q, hds, h, hp => by
    obtain ⟨s', hg, h⟩ := h d (hds d (List.mem_cons_self ..))
    have hds' : ∀ d ∈ ds, D d := fun d hd => hds d (List.mem_cons_of_mem _ hd)
    cases hg with
    | idle hf =>
      obtain ⟨b, c, q', h1, h2, h3⟩ := Ob.laid hQ o ds hds' h hp
      exact ⟨_ :: b, c, q', congrArg (List.cons _) h1, .idle hf h2, h3⟩
    | @put _ _ _ _ p hpp hf1 hf2 =>
      obtain ⟨b, c, q', h1, h2, h3, h4⟩ := Ob.laid hQ o ds hds' h hpp
      rw [List.append_assoc] at h3 h4
      rw [List.length_append] at h2
      exact ⟨_ :: b, c, p ++ q', congrArg (List.cons _) h1, .put hf1 hf2 h2, h3, h4⟩
    | last he hw => exact ⟨[], _, [], rfl, .nil, by rwa [List.append_nil], fun _ => ⟨he, by rwa [List.append_nil]⟩, fun _ => by rwa [List.append_nil]⟩

theorem Ob.delivers {Q : Unit → World → Stage → Prop} (hQ : ∀ y w s, Q y w s → s = .erasing ∨ ∃ o q, s = .laying o q ∧ Whole made q) : ∀ (ds : List Disk) {t : Thr Error Unit} {a : World}, (∀ d ∈ ds, D d) →
    Ob D made er out Q t a .opening → Delivers made er ((Proc.after ds ⟨a, t⟩).rest = .done (.ok ())) out (Proc.among ds ⟨a, t⟩)
  | ds, .done r, a, _, h => by
    refine ⟨[], [], [], 0, [], by cases ds <;> rfl, fun _ h => (nomatch h), fun h => absurd rfl h, .nil, .inl rfl, fun h => absurd rfl h, fun e => ?_⟩
    have e : r = .ok () := by cases ds <;> (injection e)
    rcases hQ _ _ _ (h () e) with h | ⟨o', q', h, hw⟩ <;> cases h
  | [], .step eff k, a, _, _ => ⟨[], [], [], 0, [], rfl, fun _ h => (nomatch h), fun h => absurd rfl h, .nil, .inl rfl, fun h => absurd rfl h, fun e => nomatch e⟩
  | d :: ds, .step eff k, a, hds, h => by
    obtain ⟨s', hg, h⟩ := h d (hds d (List.mem_cons_self ..))
    have hds' : ∀ d ∈ ds, D d := fun d hd => hds d (List.mem_cons_of_mem _ hd)
    cases hg with
    | opening hf =>
      obtain ⟨a', b, c, o, q, h1, h2, h3, h4, h5⟩ := Ob.delivers hQ ds hds' h
      refine ⟨_ :: a', b, c, o, q, congrArg (List.cons _) h1, List.forall_mem_cons.2 ⟨hf, h2⟩, fun hn => ?_, h4, h5⟩
      obtain ⟨st, hs, ho⟩ := h3 hn
      exact ⟨st, by rw [List.getLast?_cons, hs]; rfl, ho⟩
    | @output _ _ o hf ho hout =>
      obtain ⟨b, c, q', h1, h2, h3, h4, h5⟩ := Ob.laid hQ o ds hds' h (.inl rfl)
      exact ⟨[_], b, c, o, q', congrArg (List.cons _) h1, fun st hs => by rw [List.mem_singleton.1 hs]; exact hf, fun _ => ⟨_, rfl, ho, hout⟩, h2, h3, h4, h5⟩

/-! ## System calls -/

section
variable {C : Crypto} {pw : Bytes} {ds : List Disk} {a : World} {s : Stage}

theorem ob_within {R : List Nat} {x : Prog ε α} {wh : Nat} (hx : Within R [] x) (hw : wh ∉ R) (hs : s.Early) :
    Ob D made er out (fun _ w s' => s' = s ∧ w.fd wh = a.fd wh) (Thr.atom x) a s := fun d _ =>
  have h := hx (a.on d)
  ⟨s, .still hs (funext fun i => h.files i (by simp)), fun _ _ => ⟨rfl, h.fds wh hw (by simp)⟩⟩

/-- The same with something about the result. -/
theorem ob_result {R : List Nat} {x : Prog ε α} {wh : Nat} {P : α → World → Prop} (hx : Within R [] x) (hw : wh ∉ R) (hs : s.Early) (hp : ∀ d, D d → ∀ y w, x (a.on d) = (.ok y, w) → P y w) :
    Ob D made er out (fun y w s' => s' = s ∧ w.fd wh = a.fd wh ∧ P y w) (Thr.atom x) a s := fun d hd =>
  have h := hx (a.on d)
  ⟨s, .still hs (funext fun i => h.files i (by simp)), fun y hy => ⟨rfl, h.fds wh hw (by simp), hp d hd y _ (by rw [← hy])⟩⟩

theorem rest_infix (w : World) (h : Nat) : w.rest h <:+: w.file (w.fd h).ino := (List.drop_suffix _ _).isInfix

theorem ob_write {wh o : Nat} {q b : Bytes} (hfd : a.fd wh = ⟨o, q.length⟩) (hp : Part made (q ++ b)) :
    Ob D made er out (fun _ w s' => s' = .laying o (q ++ b) ∧ w.fd wh = ⟨o, (q ++ b).length⟩) (Thr.atom (writeAll wh b)) a (.laying o q) := fun d _ => by
  have hpre : ∀ k, Part made (q ++ b.take k) := fun k => by
    rcases hp with h | ⟨f, hf, h⟩
    · simp only [List.append_eq_nil_iff] at h
      rw [h.1, h.2]; exact .inl (by simp)
    · exact .inr ⟨f, hf, ((List.prefix_append_right_inj q).2 (List.take_prefix _ _)).trans h⟩
  have hfd' : (a.on d).fd wh = ⟨o, q.length⟩ := hfd
  have go : ∀ {w' : World} {c : Bytes}, Part made (q ++ c) → w'.core = ((a.on d).put wh c).core → Goes made er out (.laying o q) d w'.disk (.laying o (q ++ c)) := by
    intro w' c hc e
    have hf : w'.file = ((a.on d).put wh c).file := World.file_of_core e
    refine .put hc ?_ fun i hi => ?_
    · show w'.file o = _
      rw [hf]
      simp only [World.put, hfd', if_true]; rfl
    · show w'.file i = _
      rw [hf]
      simp only [World.put, hfd', if_neg hi]; rfl
  rcases writeAll_spec wh b (a.on d) with ⟨w', e, hc⟩ | ⟨er, k, w', hk, e, hc⟩ <;> simp only [e]
  · refine ⟨_, go hp hc, fun y _ => ⟨rfl, ?_⟩⟩
    show w'.fd wh = _
    rw [World.fd_of_core hc, World.put_fd_same, hfd', List.length_append]
  · exact ⟨_, go (hpre k) hc, fun _ h => nomatch h⟩

/-! ## The header -/

theorem ob_deserialize {hr wh : Nat} (hn : wh ≠ hr) (hpos : (a.fd hr).pos = 0) (hs : s.Early) (hold : ∀ d, D d → ∀ i, ¬ versionCode .v1 <+: d.file i ∧ ¬ versionCode .v2 <+: d.file i) :
    Ob D made er out (fun r w s' => s' = s ∧ w.fd wh = a.fd wh ∧ Parsed r.1 r.2) (Steps.deserialize hr) a s := by
  unfold Steps.deserialize
  refine Ob.bind ?_ (Ob.atomErr (ob_result (R := [hr]) (P := fun b _ => b ≠ versionCode .v1 ∧ b ≠ versionCode .v2) (.readExact 2 (by simp)) (by simpa using hn) hs fun d hd b w e => ?_))
  · rintro vb w s' ⟨rfl, hw, hv1, hv2⟩
    refine Ob.bind ?_ (Ob.atomErr (ob_within (R := [hr]) (.seekCur (-2) (by simp)) (by simpa using hn) hs))
    rintro _ w2 s' ⟨rfl, hw2⟩
    cases hpv : parseVersion vb with
    | none => exact .fail
    | some v =>
      refine Ob.bind ?_ (Ob.atomErr (ob_result (R := [hr]) (P := fun b _ => b.length = v.size) (.readExact v.size (by simp)) (by simpa using hn) hs fun d _ b w e => ?_))
      · rintro full w3 s' ⟨rfl, hw3, hl⟩
        refine .done fun r hr => ⟨rfl, hw3.trans (hw2.trans hw), v, full, ?_, ?_, hl, hr⟩
        · rintro rfl; exact hv1 ((parseVersion_iff _ _).1 hpv)
        · rintro rfl; exact hv2 ((parseVersion_iff _ _).1 hpv)
      · rcases readExact_spec hr v.size (w2.on d) with ⟨w', hl, e', -⟩ | ⟨e', w', k, e', -⟩ <;> rw [e'] at e <;> cases e
        rw [List.length_take]; omega
  · rcases readExact_spec hr 2 (a.on d) with ⟨w', hl, e', -⟩ | ⟨e', w', k, e', -⟩ <;> rw [e'] at e <;> cases e
    have hrest : (a.on d).rest hr = d.file (a.fd hr).ino := by
      show (d.file (a.fd hr).ino).drop (a.fd hr).pos = _
      rw [hpos]; rfl
    rw [hrest]
    have := hold d hd (a.fd hr).ino
    exact ⟨fun e => this.1 (e ▸ List.take_prefix _ _), fun e => this.2 (e ▸ List.take_prefix _ _)⟩

theorem ob_getHeader {req : Decrypt.Request} {wh : Nat} (hn : wh ≠ req.reader) (hn' : ∀ hr, req.headerReader = some hr → wh ≠ hr)
    (hpos : (a.fd req.reader).pos = 0) (hpos' : ∀ hr, req.headerReader = some hr → (a.fd hr).pos = 0) (hs : s.Early)
    (hold : ∀ d, D d → ∀ i, ¬ versionCode .v1 <+: d.file i ∧ ¬ versionCode .v2 <+: d.file i) :
    Ob D made er out (fun r w s' => s' = s ∧ w.fd wh = a.fd wh ∧ Parsed r.1 r.2) (Steps.getHeader req) a s := by
  unfold Steps.getHeader
  cases hh : req.headerReader with
  | none => exact (ob_deserialize hn hpos hs hold).mapErr
  | some hr =>
    refine Ob.bind ?_ (ob_deserialize (hn' hr hh) (hpos' hr hh) hs hold).mapErr
    rintro ⟨h, aad⟩ w s' ⟨rfl, hw, hp⟩
    refine Ob.bind ?_ (Ob.atomErr (ob_within (R := [req.reader]) (.readUpTo _ (by simp)) (by simpa using hn) hs))
    rintro got w2 s' ⟨rfl, hw2⟩
    simp only
    split
    · refine Ob.bind ?_ (Ob.atomErr (ob_within (R := [req.reader]) (.rewind (by simp)) (by simpa using hn) hs))
      rintro _ w3 s' ⟨rfl, hw3⟩
      exact .pure ⟨rfl, hw3.trans (hw2.trans hw), hp⟩
    · exact .pure ⟨rfl, hw2.trans hw, hp⟩

/-! ## The body -/

theorem decAt_ok {st : Stream} {last : Bool} {aad ct m : Bytes} (h : st.decAt C last aad ct = .ok m) : st.position ≤ C.ctrMax ∧ C.dec st.algorithm st.key (streamNonce st.pre st.position last) aad ct = some m := by
  unfold Stream.decAt at h
  split at h
  · cases h
  · next hle =>
    cases hd : C.dec st.algorithm st.key (streamNonce st.pre st.position last) aad ct with
    | none => rw [hd] at h; cases h
    | some x => rw [hd] at h; cases h; exact ⟨by omega, rfl⟩

theorem ob_decLoop {h : Header} {aad mk : Bytes} (hC : C.Lawful) (hm : ProperlyMade C made) (hp : Parsed h aad) (hr : Recovers C pw h mk) (nf : NothingForged C made pw ds) (hmode : h.headerType.mode = .streamMode)
    {rh wh o : Nat} (hn : wh ≠ rh) : ∀ (fuel : Nat) {st : Stream} {q : Bytes} {a : World}, st.algorithm = h.headerType.algorithm → st.key = mk → st.pre = h.nonce → Sofar made mk aad st.position q → a.fd wh = ⟨o, q.length⟩ →
      Ob (· ∈ ds) made er out (fun _ w s' => ∃ q', s' = .laying o q' ∧ Whole made q') (Steps.decLoop C rh wh aad fuel st) a (.laying o q) := by
  intro fuel
  induction fuel with
  | zero => _
  | succ n ih => _
  all_goals
    intro st q a h1 h2 h3 hs hfd
    unfold Steps.decLoop
    refine Ob.bind ?_ (Ob.atomErr (ob_result (R := [rh]) (P := fun b _ => ∃ d i, d ∈ ds ∧ b <:+: d.file i) (.read _ (by simp)) (by simpa using hn) trivial fun d hd b w e => ?_))
    case refine_2 =>
      rcases read_spec rh (BLOCK_SIZE + 16) (a.on d) with ⟨k, w', e', -⟩ | ⟨e', w', e', -⟩ <;> rw [e'] at e <;> cases e
      exact ⟨d, _, hd, (List.take_prefix _ _).isInfix.trans (rest_infix (a.on d) rh)⟩
    rintro buf w s' ⟨rfl, hw, d, i, hd, hb⟩
    simp only
    split
    · refine Ob.lift fun r hr' => ?_
      obtain ⟨m, st'⟩ := r
      simp only
      have hst : st.decAt C false aad buf = .ok m ∧ st' = { st with position := st.position + 1 } := by
        unfold Stream.decryptNext at hr'
        split at hr'
        · cases hr'
        · cases hx : st.decAt C false aad buf with
          | ok m' => rw [hx] at hr'; cases hr'; exact ⟨rfl, rfl⟩
          | err e => rw [hx] at hr'; cases hr'
          | abort e => rw [hx] at hr'; cases hr'
      obtain ⟨hdec, rfl⟩ := hst
      obtain ⟨hle, hdec⟩ := decAt_ok hdec
      rw [h1, h2, h3] at hdec
      obtain ⟨g, hg, hgk, hga, hch⟩ := opens_block hC hm hp hr nf hmode hd hb hle hdec
      obtain ⟨hpre, hnext, -⟩ := hs.next hm hg hgk hga hch
      refine Ob.bind ?_ (Ob.atomErr (ob_write (hw.trans hfd) (.inr ⟨g, hg, hpre⟩)))
      rintro _ w2 s' ⟨rfl, hw2⟩
      first
        | exact .abort
        | exact ih h1 h2 h3 (hnext rfl) hw2
    · refine Ob.lift fun m hr' => ?_
      obtain ⟨hle, hdec⟩ := decAt_ok hr'
      rw [h1, h2, h3] at hdec
      obtain ⟨g, hg, hgk, hga, hch⟩ := opens_block hC hm hp hr nf hmode hd hb hle hdec
      obtain ⟨hpre, -, hlast⟩ := hs.next hm hg hgk hga hch
      refine (Ob.atomErr (ob_write (hw.trans hfd) (.inr ⟨g, hg, hpre⟩))).mono fun _ w2 s' hx => ?_
      exact ⟨_, hx.1, g, hg, hlast rfl⟩

theorem mapErr_ok {r : Res ε α} {f : ε → ε'} {y : α} (h : r.mapErr f = .ok y) : r = .ok y := by cases r <;> cases h; rfl

theorem Parsed.recovers {h : Header} {aad mk : Bytes} (hC : C.Lawful) (hp : Parsed h aad) (hk : decryptMasterKey C pw h = .ok mk) : Recovers C pw h mk := by
  obtain ⟨full, aad', hi, -⟩ := hp.patch
  rcases decryptMasterKey_cases hC pw hi with ⟨mk', h1, h2, -⟩ | ⟨e, h1, -⟩ <;> rw [hk] at h1 <;> cases h1
  exact h2

theorem readToEnd_ok {h : Nat} {w w' : World} {b : Bytes} (e : readToEnd h w = (.ok b, w')) : b = w.rest h := by
  unfold readToEnd at e
  rcases readUpTo_spec h ((w.rest h).length + 1) w with ⟨s', e'⟩ | ⟨k, s', -, e'⟩ <;> rw [e'] at e <;> cases e
  exact List.take_of_length_le (by omega)

theorem ob_decryptRest {h : Header} {aad : Bytes} {req : Decrypt.Request} {o : Nat} (hC : C.Lawful) (hm : ProperlyMade C made) (hp : Parsed h aad) (nf : NothingForged C made req.rawKey ds)
    (hn : req.writer ≠ req.reader) (hfd : a.fd req.writer = ⟨o, 0⟩) :
    Ob (· ∈ ds) made er out (fun _ w s' => ∃ q', s' = .laying o q' ∧ Whole made q') (Steps.decryptRest C req h aad) a (.laying o []) := by
  unfold Steps.decryptRest
  cases hmode : h.headerType.mode with
  | memoryMode =>
    refine Ob.bind ?_ (Ob.atomErr (ob_result (R := [req.reader]) (wh := req.writer) (P := fun b _ => ∃ d i, d ∈ ds ∧ b <:+: d.file i) (.readToEnd (by simp)) (by simpa using hn) trivial fun d hd b w e => ?_))
    case refine_2 => rw [readToEnd_ok e]; exact ⟨d, _, hd, rest_infix (a.on d) _⟩
    rintro buf w s' ⟨rfl, hw, d, i, hd, hb⟩
    refine Ob.lift fun mk hk => Ob.lift fun c hc => Ob.lift fun m hdec => ?_
    have hr := hp.recovers hC (mapErr_ok hk)
    have hc : c = ⟨h.headerType.algorithm, mk⟩ := by
      have := mapErr_ok hc
      unfold Cipher.initialize at this
      split at this <;> cases this
      rfl
    subst hc
    have hdec : C.dec h.headerType.algorithm mk h.nonce aad buf = some m := by
      have := mapErr_ok hdec
      unfold Cipher.decrypt at this
      split at this
      · cases this
      · cases hx : C.dec h.headerType.algorithm mk h.nonce aad buf with
        | none => simp only [hx] at this; cases this
        | some x => simp only [hx] at this; cases this; rfl
    obtain ⟨g, hg, -, -, -, -, hb⟩ := opens_made hC hm hp hr nf hd hb hdec
    simp only [hmode] at hb
    refine (Ob.atomErr (ob_write (q := []) (b := m) (hw.trans hfd) (.inr ⟨g, hg, ?_⟩))).mono fun _ w2 s' hx => ⟨_, hx.1, g, hg, hb⟩
    rw [hb]; exact List.prefix_refl _
  | streamMode =>
    refine Ob.lift fun mk hk => Ob.lift fun st hst => Ob.mapErr ?_
    have hr := hp.recovers hC (mapErr_ok hk)
    have hst : st = ⟨h.headerType.algorithm, mk, h.nonce, 0⟩ := by
      have := mapErr_ok hst
      unfold decInitialize at this
      split at this
      · cases this
      · split at this <;> cases this
        rfl
    subst hst
    unfold Steps.decryptFile
    refine Ob.bind ?_ (ob_decLoop hC hm hp hr nf hmode hn C.ctrMax (q := []) rfl rfl rfl (.inl ⟨rfl, rfl⟩) hfd)
    rintro _ w s' ⟨q', rfl, hq⟩
    exact (Ob.atomErr (ob_within (R := []) (wh := 0) (s := .laying o q') (.flush _) (by simp) trivial)).mono fun _ _ s' hx => ⟨q', hx.1, hq⟩

theorem ob_execute {req : Decrypt.Request} {o : Nat} (hC : C.Lawful) (hm : ProperlyMade C made) (hold : NoneOld ds) (nf : NothingForged C made req.rawKey ds)
    (hn : req.writer ≠ req.reader) (hn' : ∀ hr, req.headerReader = some hr → req.writer ≠ hr)
    (hpos : (a.fd req.reader).pos = 0) (hpos' : ∀ hr, req.headerReader = some hr → (a.fd hr).pos = 0) (hfd : a.fd req.writer = ⟨o, 0⟩) :
    Ob (· ∈ ds) made er out (fun _ w s' => ∃ q', s' = .laying o q' ∧ Whole made q') (Steps.decryptExecute C req) a (.laying o []) := by
  unfold Steps.decryptExecute
  refine Ob.bind ?_ (ob_getHeader hn hn' hpos hpos' trivial hold)
  rintro ⟨h, aad⟩ w s' ⟨rfl, hw, hp⟩
  exact ob_decryptRest hC hm hp nf hn (hw.trans hfd)

end

/-! ## The command -/

section
variable {ds : List Disk} {a b c : World} {s : Stage}

/-- The handles are as they were, and what is left of the user's input is a rest of it. -/
structure Kept (a w : World) : Prop where
  fds : a.nextFd ≤ w.nextFd
  fd : ∀ h, h < a.nextFd → w.fd h = a.fd h
  env : w.env = a.env
  stdin : w.stdin <:+ a.stdin
  tty : w.tty <:+ a.tty

theorem Kept.refl (a : World) : Kept a a := ⟨Nat.le_refl _, fun _ _ => rfl, rfl, List.suffix_refl _, List.suffix_refl _⟩
theorem Kept.trans (h : Kept a b) (h' : Kept b c) : Kept a c :=
  ⟨Nat.le_trans h.fds h'.fds, fun x hx => (h'.fd x (Nat.lt_of_lt_of_le hx h.fds)).trans (h.fd x hx), h'.env.trans h.env, h'.stdin.trans h.stdin, h'.tty.trans h.tty⟩

theorem Kept.of_looked {d : Disk} {w : World} (h : Looked a.nextFd (a.on d) w) : Kept a w := ⟨h.nextFd, h.fds, h.env, h.stdin, h.tty⟩

theorem Kept.opened {w : World} (h : w.fd = a.fd) (h1 : w.nextFd = a.nextFd) (h2 : w.env = a.env) (h3 : w.stdin = a.stdin) (h4 : w.tty = a.tty) (i : Nat) : Kept a (w.opened i) := by
  refine ⟨by show a.nextFd ≤ w.nextFd + 1; omega, fun x hx => ?_, h2, by show w.stdin <:+ _; rw [h3]; exact List.suffix_refl _, by show w.tty <:+ _; rw [h4]; exact List.suffix_refl _⟩
  unfold World.opened
  simp only
  rw [if_neg (by omega), h]

theorem supply_mono {key : Key} {pw : Bytes} (h : Kept a b) (hm : MaySupply key b ds pw) : MaySupply key a ds pw := by
  unfold MaySupply at hm ⊢
  cases key with
  | keyfile p =>
    simp only at hm ⊢
    split
    · next e =>
      rw [if_pos e] at hm
      obtain ⟨l, hl, e⟩ := hm
      exact ⟨l, hl.trans h.stdin, e⟩
    · next e => rw [if_neg e] at hm; exact hm
  | env => exact h.env ▸ hm
  | user => exact h.tty.subset hm
  | generate n => trivial

theorem ob_looks {x : Prog ε α} {P : α → Prop} (hx : ∀ n, Looks n P x) (hs : s.Early) : Ob D made er out (fun y w s' => s' = s ∧ Kept a w ∧ P y) (Thr.atom x) a s := fun d _ =>
  have h := hx a.nextFd (a.on d) (Nat.le_refl _)
  ⟨s, .still hs h.1.file, fun y hy => ⟨rfl, .of_looked h.1, h.2 y _ (by rw [← hy])⟩⟩

theorem ob_same {x : Prog ε α} (hx : ∀ w, (x w).2 = w) (hs : s.Early) : Ob D made er out (fun _ w s' => s' = s ∧ Kept a w) (Thr.atom x) a s := fun d _ => by
  simp only [hx]
  exact ⟨s, .still hs rfl, fun _ _ => ⟨rfl, Nat.le_refl _, fun _ _ => rfl, rfl, List.suffix_refl _, List.suffix_refl _⟩⟩

theorem ob_openFile (p : PathBuf) (hs : s.Early) : Ob D made er out (fun h w s' => s' = s ∧ Kept a w ∧ a.nextFd ≤ h ∧ h < w.nextFd ∧ (w.fd h).pos = 0) (Thr.atom (openFile p)) a s := fun d _ => by
  obtain ⟨sc, ⟨e, h⟩ | ⟨q, i, hq, hl, h⟩⟩ := openFile_cases p (a.on d) <;> simp only [h]
  · exact ⟨s, .still hs rfl, fun _ h => nomatch h⟩
  · refine ⟨s, .still hs rfl, fun y hy => ?_⟩
    cases hy
    refine ⟨rfl, .opened (a := a) (w := { a.on d with sched := sc }) rfl rfl rfl rfl rfl i, Nat.le_refl _, Nat.lt_succ_self _, ?_⟩
    rw [show (({ a.on d with sched := sc } : World).opened i).fd (a.on d).nextFd = _ from opened_fd { a.on d with sched := sc } i]

/-- An entry that was opened for reading. -/
def In (e : Storage.Entry) (w : World) : Prop := ∀ h, e.stream = .ok h → h < w.nextFd ∧ (w.fd h).pos = 0

theorem In.keep {e : Storage.Entry} (h : In e a) (hk : Kept a b) : In e b := fun x hx => ⟨Nat.lt_of_lt_of_le (h x hx).1 hk.fds, by rw [hk.fd x (h x hx).1]; exact (h x hx).2⟩

theorem ob_readInput (p : PathBuf) (hs : s.Early) : Ob D made er out (fun e w s' => s' = s ∧ Kept a w ∧ In e w) (Steps.readInput p) a s := by
  unfold Steps.readInput Steps.readFile
  refine Ob.mapErr (Ob.bind ?_ (ob_same (fun _ => rfl) hs))
  rintro b w s' ⟨rfl, hk⟩
  cases b with
  | true => exact .pure ⟨rfl, hk, fun _ h => nomatch h⟩
  | false =>
    refine Ob.bind ?_ (Ob.atomErr (ob_openFile p hs))
    rintro h w2 s' ⟨rfl, hk2, -, h1, h2⟩
    exact .pure ⟨rfl, hk.trans hk2, fun x hx => by cases hx; exact ⟨h1, h2⟩⟩

theorem ob_readHeader (sys : Sys σ) (header : Option (List Char)) (hs : s.Early) :
    Ob D made er out (fun e w s' => s' = s ∧ Kept a w ∧ ∀ hr, optStream e = some hr → hr < w.nextFd ∧ (w.fd hr).pos = 0) (Steps.readHeader sys header) a s := by
  cases header with
  | none => exact .pure ⟨rfl, .refl a, fun _ h => nomatch h⟩
  | some path =>
    refine Ob.bind ?_ (ob_readInput _ hs)
    rintro e w s' ⟨rfl, hk, hi⟩
    refine .pure ⟨rfl, hk, fun hr h => hi hr ?_⟩
    cases e with
    | file p x => cases h; rfl
    | dir p => cases h

theorem ob_consent (cwd : Path) (name : List Char) (force : ForceMode) (hs : s.Early) : Ob D made er out (fun _ w s' => s' = s ∧ Kept a w) (Steps.consent cwd name force) a s := by
  unfold Steps.consent Steps.overwriteCheck
  refine Ob.bind (Q := fun _ w s' => s' = s ∧ Kept a w) ?_ (Ob.bind ?_ (ob_same (fun _ => rfl) hs))
  · rintro b w s' ⟨rfl, hk⟩
    cases b with
    | true => exact .pure ⟨rfl, hk⟩
    | false => exact .abort
  · rintro b w s' ⟨rfl, hk⟩
    cases b with
    | true => exact (ob_looks (fun n => getAnswer_looks n _ _ _) hs).mono fun _ _ _ h => ⟨h.1, hk.trans h.2.1⟩
    | false => exact .pure ⟨rfl, hk⟩

theorem ob_fetchAside {words : List (List Char)} {cwd : Path} {key : Key} (hk : ∀ p, key = .keyfile p → p = ['-']) (hs : s.Early) :
    Ob (· ∈ ds) made er out (fun pw w s' => s' = s ∧ Kept a w ∧ MaySupply key a ds pw) (Thr.atom (Cli.fetch words cwd .direct key)) a s := fun d hd => by
  have h := fetch_looks a.nextFd words cwd .direct key (a.on d) (Nat.le_refl _)
  refine ⟨s, .still hs h.1.file, fun y hy => ⟨rfl, .of_looked h.1, ?_⟩⟩
  have hsup := fetch_ok (words := words) (cwd := cwd) (state := .direct) (key := key) (w := a.on d) (x := y) (w' := _) (by rw [← hy])
  unfold Supplies at hsup
  unfold MaySupply
  cases key with
  | keyfile p =>
    have := hk p rfl
    subst this
    simp only [if_true] at hsup ⊢
    exact ⟨_, List.suffix_refl _, hsup⟩
  | env => exact hsup
  | user =>
    obtain ⟨rest, h⟩ := hsup
    have h : a.tty = y :: rest := h
    simp only [h]
    exact List.mem_cons_self ..
  | generate n => trivial

theorem ob_getSecret (words : List (List Char)) (cwd : Path) (key : Key) (hs : s.Early) :
    Ob (· ∈ ds) made er out (fun pw w s' => s' = s ∧ Kept a w ∧ MaySupply key a ds pw) (Steps.getSecret words cwd key .direct) a s := by
  unfold Steps.getSecret
  refine Ob.bind (Q := fun pw w s' => s' = s ∧ Kept a w ∧ MaySupply key a ds pw) ?_ ?_
  · rintro pw w s' h
    split
    · exact .fail
    · exact .pure h
  · cases key with
    | keyfile p =>
      unfold Steps.fetch
      simp only
      by_cases hp : p = ['-']
      · subst hp
        rw [if_pos rfl]
        exact ob_fetchAside (fun q hq => by cases hq; rfl) hs
      · rw [if_neg hp]
        unfold Steps.readKeyfile
        refine Ob.bind ?_ (Ob.atomErr (ob_openFile _ hs))
        rintro h w s' ⟨rfl, hk, hlt, hlt', hpos⟩
        refine Ob.bind (Q := fun pw w s'' => s'' = s' ∧ Kept a w ∧ ∃ d ∈ ds, ∃ i, pw = d.file i) ?_ (Ob.atomErr fun d hd => ?_)
        · rintro pw w s' ⟨rfl, hk, hp'⟩
          split
          · exact .fail
          · refine .pure ⟨rfl, hk, ?_⟩
            unfold MaySupply
            simp only
            rw [if_neg hp]
            exact hp'
        · have ht : Within [h] [] (readToEnd h) := .readToEnd (by simp)
          have ht := ht (w.on d)
          refine ⟨s', .still hs (funext fun i => ht.files i (by simp)), fun y hy => ⟨rfl, ⟨?_, fun x hx => ?_, ?_, ?_, ?_⟩, d, hd, (w.fd h).ino, ?_⟩⟩
          · rw [ht.nextFd]; exact hk.fds
          · rw [ht.fds x (by simp; omega) (by simp)]; exact hk.fd x hx
          · rw [ht.env]; exact hk.env
          · rw [ht.stdin]; exact hk.stdin
          · rw [ht.tty]; exact hk.tty
          · rw [readToEnd_ok (w := w.on d) (w' := _) (h := h) (b := y) (by rw [← hy])]
            show (d.file (w.fd h).ino).drop (w.fd h).pos = _
            rw [hpos]; rfl
    | env => exact ob_fetchAside (fun _ h => by cases h) hs
    | user => exact ob_fetchAside (fun _ h => by cases h) hs
    | generate n => exact ob_fetchAside (fun _ h => by cases h) hs

/-- An entry that was opened for writing, to an empty file. -/
def Fresh (a : World) (e : Storage.Entry) (w : World) (s : Stage) : Prop := ∃ h o, e.stream = .ok h ∧ a.nextFd ≤ h ∧ w.fd h = ⟨o, 0⟩ ∧ s = .laying o []

theorem look_new (w : World) {q : Path} (hl : w.look q = none) : (w.created q).look q = some (.file w.nextIno) := by
  rw [World.look_created, if_neg (fun e => by rw [e] at hl; cases hl), if_pos rfl]

theorem createFile_cases (p : PathBuf) (w : World) : ∃ s, (∃ e, Storage.createFile p w = (.err e, { w with sched := s })) ∨
    ∃ q, w.resolve p = .ok q ∧ w.look q = none ∧ Storage.createFile p w = (.ok (.file p w.nextFd), (({ w with sched := s } : World).created q).opened w.nextIno) := by
  obtain ⟨s, ⟨e, h⟩ | ⟨q, hq, hl, h⟩⟩ := openNew_cases p w
  · refine ⟨s, .inl ⟨.createFile, ?_⟩⟩
    unfold Storage.createFile
    rw [Prog.bind_run, Prog.mapErr_run, h]
  · refine ⟨s, .inr ⟨q, hq, hl, ?_⟩⟩
    unfold Storage.createFile
    rw [Prog.bind_run, Prog.mapErr_run, h]; rfl

theorem writeFile_cases (p : PathBuf) (w : World) : ∃ s, (∃ e, Storage.writeFile p w = (.err e, { w with sched := s })) ∨
    ∃ q i, w.resolve p = .ok q ∧ w.look q = some (.file i) ∧ Storage.writeFile p w = (.ok (.file p w.nextFd), (({ w with sched := s } : World).opened i).truncated i) := by
  obtain ⟨s, ⟨e, h⟩ | ⟨q, i, hq, hl, h⟩⟩ := openTrunc_cases p w
  · refine ⟨s, .inl ⟨.openFile .write, ?_⟩⟩
    unfold Storage.writeFile
    rw [Prog.bind_run, Prog.mapErr_run, h]
  · refine ⟨s, .inr ⟨q, i, hq, hl, ?_⟩⟩
    unfold Storage.writeFile
    rw [Prog.bind_run, Prog.mapErr_run, h]; rfl

theorem ob_openOutput (p : PathBuf) (hout : ∀ d d' q i, (a.on d).resolve p = .ok q → lookDisk d' q = some (.file i) → out d d' i) : Ob D made er out (fun e w s' => Kept a w ∧ Fresh a e w s') (Steps.openOutput p) a .opening := by
  unfold Steps.openOutput Steps.orElse
  refine Ob.mapErr (Ob.bind (Q := fun r w s' => Kept a w ∧ match r with | .ok e => Fresh a e w s' | _ => s' = .opening) ?_ fun d _ => ?_)
  · rintro r w s' ⟨hk, hr⟩
    cases r with
    | ok e => exact .pure ⟨hk, hr⟩
    | abort e => exact .abort
    | err e =>
      simp only at hr ⊢
      subst hr
      intro d _
      obtain ⟨sc, ⟨e, h⟩ | ⟨q, i, hq, hl, h⟩⟩ := writeFile_cases p (w.on d) <;> simp only [h]
      · exact ⟨.opening, .opening fun _ => .inl rfl, fun _ h => nomatch h⟩
      · refine ⟨.laying i [], .output (fun j => ?_) (if_pos rfl) (hout _ _ q i ((World.resolve_congr (w := a.on d) (w' := w.on d) rfl _).symm.trans hq) hl), fun y hy => ?_⟩
        · by_cases e : j = i
          · exact .inr (if_pos e)
          · exact .inl (if_neg e)
        · cases hy
          refine ⟨hk.trans ?_, (w.on d).nextFd, i, rfl, hk.fds, ?_, rfl⟩
          · have := Kept.opened (a := w) (w := { w.on d with sched := sc }) rfl rfl rfl rfl rfl i
            exact ⟨this.fds, this.fd, this.env, this.stdin, this.tty⟩
          · exact opened_fd { w.on d with sched := sc } i
  · unfold Prog.attempt
    obtain ⟨sc, ⟨e, h⟩ | ⟨q, hq, hl, h⟩⟩ := createFile_cases p (a.on d) <;> simp only [h]
    · exact ⟨.opening, .opening fun _ => .inl rfl, fun y hy => by
        cases hy
        exact ⟨⟨Nat.le_refl _, fun _ _ => rfl, rfl, List.suffix_refl _, List.suffix_refl _⟩, rfl⟩⟩
    · refine ⟨.laying (a.on d).nextIno [], .output (fun j => ?_) (if_pos rfl) (hout _ _ q _ hq (look_new _ hl)), fun y hy => ?_⟩
      · by_cases e : j = (a.on d).nextIno
        · exact .inr (if_pos e)
        · exact .inl (if_neg e)
      · cases hy
        refine ⟨.opened (a := a) (w := World.created { a.on d with sched := sc } q) rfl rfl rfl rfl rfl _, (a.on d).nextFd, _, rfl, Nat.le_refl _, ?_, rfl⟩
        exact opened_fd (World.created { a.on d with sched := sc } q) _

theorem ob_quiet {x : Prog ε α} (hx : ∀ w, (x w).2.file = w.file) (hs : s.Early) : Ob D made er out (fun _ _ s' => s' = s) (Thr.atom x) a s :=
  fun d _ => ⟨s, .still hs (hx _), fun _ _ => rfl⟩

theorem ob_hashLoop (H : HashCmd.Hasher σ) (h : Nat) (hs : s.Early) : ∀ (fuel : Nat) (st : σ) {a : World}, Ob D made er out (fun _ _ s' => s' = s) (Steps.hashLoop H h fuel st) a s := by
  intro fuel
  have hread : ∀ {a : World}, Ob D made er out (fun _ _ s' => s' = s) (Thr.atom ((read h BLOCK_SIZE).mapErr fun _ => HashCmd.Error.readData)) a s := fun {a} =>
    Ob.atomErr ((ob_within (a := a) (R := [h]) (wh := h + 1) (.read _ (by simp)) (by simp) hs).mono fun _ _ _ h => h.1)
  induction fuel with
  | zero =>
    intro st a
    unfold Steps.hashLoop
    refine Ob.bind ?_ hread
    rintro b w s' rfl
    simp only
    split
    · exact .pure rfl
    · exact .abort
  | succ n ih =>
    intro st a
    unfold Steps.hashLoop
    refine Ob.bind ?_ hread
    rintro b w s' rfl
    simp only
    split
    · exact .pure rfl
    · exact ih _

theorem ob_hashIf (sys : Sys σ) (mode : HashMode) (file : List Char) (hs : s.Early) : Ob D made er out (fun _ _ s' => s' = s) (Steps.hashIf sys mode file) a s := by
  have one : ∀ (files : List (List Char)) {a : World}, Ob D made er out (fun _ _ s' => s' = s) (Steps.hashStream sys files) a s := by
    intro files
    induction files with
    | nil => intro a; exact .pure rfl
    | cons f fs ih =>
      intro a
      unfold Steps.hashStream Steps.hashExecute
      refine Ob.bind ?_ (Ob.atomErr (ob_openFile _ hs))
      rintro h w s' ⟨rfl, -⟩
      refine Ob.bind (Q := fun _ _ s'' => s'' = s') ?_ (Ob.mapErr (Ob.bind ?_ (Ob.atomErr (ob_within (R := [h]) (wh := h + 1) (.rewind (by simp)) (by simp) hs))))
      · rintro _ w s' rfl
        refine Ob.bind ?_ (ob_quiet (fun _ => rfl) hs)
        rintro _ w s' rfl
        refine Ob.bind ?_ ih
        rintro _ w s' rfl
        exact .pure rfl
      · rintro _ w s' ⟨rfl, -⟩
        refine Ob.bind ?_ (ob_quiet (fun _ => rfl) hs)
        rintro n w s' rfl
        refine Ob.bind ?_ (ob_hashLoop sys.H h hs n _)
        rintro _ w s' rfl
        exact .pure rfl
  cases mode with
  | noHash => exact .pure rfl
  | calculateHash =>
    refine Ob.bind ?_ (one [file])
    rintro _ w s' rfl
    exact .pure rfl

theorem ob_decryptBody {sys : Sys σ} {input output : Storage.Entry} {header : Option Storage.Entry} {rawKey : Bytes} {h o : Nat} (hC : sys.C.Lawful) (hm : ProperlyMade sys.C made) (hold : NoneOld ds)
    (nf : NothingForged sys.C made rawKey ds) (hi : ∀ x, input.stream = .ok x → x < h ∧ (a.fd x).pos = 0) (hh : ∀ x, optStream header = some x → x < h ∧ (a.fd x).pos = 0)
    (ho : output.stream = .ok h) (hfd : a.fd h = ⟨o, 0⟩) :
    Ob (· ∈ ds) made er out (fun _ _ s' => ∃ q', s' = .laying o q' ∧ Whole made q') (Steps.decryptBody sys input output header rawKey) a (.laying o []) := by
  unfold Steps.decryptBody Steps.streamOf
  refine Ob.lift fun rh hrh => Ob.lift fun wh hwh => ?_
  have hrh := hi rh (mapErr_ok hrh)
  have hwh := mapErr_ok hwh
  rw [ho] at hwh
  cases hwh
  refine Ob.bind ?_ (Ob.mapErr (ob_execute hC hm hold nf (by simp only; omega) (fun hr h => by have := hh hr h; simp only; omega) hrh.2 (fun hr h => (hh hr h).2) hfd))
  rintro _ w s' ⟨q', rfl, hq⟩
  unfold Steps.flushFile
  refine Ob.mapErr (Ob.lift fun x _ => ?_)
  exact (Ob.atomErr (ob_within (R := []) (wh := 0) (s := .laying o q') (.flush _) (by simp) trivial)).mono fun _ _ s' hx => ⟨q', hx.1, hq⟩

theorem ob_finish {o : Nat} {q : Bytes} (he : er) (hq : Whole made q) {t : Thr ε α} : Ob D made er out (fun _ _ s' => s' = .erasing ∨ ∃ o q, s' = .laying o q ∧ Whole made q) t a (.laying o q) := by
  cases t with
  | done r => exact fun _ _ => .inr ⟨o, q, rfl, hq⟩
  | step eff k => exact fun d _ => ⟨.erasing, .last he hq, Ob.erasing.mono fun _ _ _ h => .inl h⟩

theorem ob_decryptMode {sys : Sys σ} {input output : List Char} {params : CryptoParams} (hC : sys.C.Lawful) (hm : ProperlyMade sys.C made) (hold : NoneOld ds)
    (nf : ∀ pw, MaySupply params.key a ds pw → NothingForged sys.C made pw ds) :
    Ob (· ∈ ds) made (params.erase ≠ .ignoreFile) (Leads a sys.cwd output) (fun _ _ s' => s' = .erasing ∨ ∃ o q, s' = .laying o q ∧ Whole made q) (Steps.decryptMode sys input output params) a .opening := by
  unfold Steps.decryptMode
  split
  · exact .fail
  · refine Ob.bind ?_ (ob_consent _ _ _ trivial)
    rintro _ w1 s' ⟨rfl, k1⟩
    refine Ob.bind ?_ (ob_readInput _ trivial)
    rintro inputFile w2 s' ⟨rfl, k2, hin⟩
    refine Ob.bind ?_ (ob_readHeader sys _ trivial)
    rintro headerFile w3 s' ⟨rfl, k3, hhd⟩
    refine Ob.bind ?_ (ob_getSecret _ _ _ trivial)
    rintro pw w4 s' ⟨rfl, k4, hpw⟩
    have hnf := nf pw (supply_mono ((k1.trans k2).trans k3) hpw)
    refine Ob.bind ?_ (ob_openOutput _ fun d d' q i hq hl => ⟨q, (World.resolve_congr (w := a.on d) (w' := w4.on d) rfl _).symm.trans hq, hl⟩)
    rintro outputFile w5 s' ⟨k5, h, o, hst, hle, hfd, rfl⟩
    refine Ob.bind ?_ (ob_decryptBody hC hm hold hnf (fun x hx => ?_) (fun x hx => ?_) hst hfd)
    · rintro _ w6 s' ⟨q, rfl, hq⟩
      refine Ob.bind ?_ (ob_hashIf sys _ _ trivial)
      rintro _ w7 s' rfl
      unfold Steps.eraseIf
      cases he : params.erase with
      | ignoreFile => exact .pure (.inr ⟨o, q, rfl, hq⟩)
      | eraseFile passes =>
        rw [← he]
        exact ob_finish (by rw [he]; exact fun h => nomatch h) hq
    · have h1 := (hin.keep k3) x hx
      have h2 := ((hin.keep k3).keep k4).keep k5 x hx
      exact ⟨by have := k4.fds; omega, h2.2⟩
    · have h1 := hhd x hx
      refine ⟨by have := k4.fds; omega, ?_⟩
      rw [k5.fd x (by have := k4.fds; omega), k4.fd x h1.1]; exact h1.2

end

end Volaris.Dist
