import Verif.Spec.RoundTrip
/-!
# Helper lemmas: names in archives
-/
namespace Volaris.ZipName
open Spec

theorem pieces_ne_nil : ∀ s, pieces s ≠ []
  | [] => by simp [pieces]
  | c :: cs => by
    unfold pieces
    split
    · simp
    · split <;> simp

theorem pieces_plain : ∀ (p : List Char), '/' ∉ p → pieces p = [p]
  | [], _ => rfl
  | c :: cs, h => by
    have hc : c ≠ '/' := fun hc => h (by rw [hc]; exact List.mem_cons_self)
    unfold pieces
    rw [if_neg hc, pieces_plain cs fun hm => h (List.mem_cons_of_mem _ hm)]

theorem pieces_slash : ∀ (p s : List Char), '/' ∉ p → pieces (p ++ '/' :: s) = p :: pieces s
  | [], s, _ => by rw [List.nil_append, pieces, if_pos rfl]
  | c :: cs, s, h => by
    have hc : c ≠ '/' := fun hc => h (by rw [hc]; exact List.mem_cons_self)
    rw [List.cons_append, pieces, if_neg hc, pieces_slash cs s fun hm => h (List.mem_cons_of_mem _ hm)]

theorem pieces_join : ∀ (ps : List (List Char)), ps ≠ [] → (∀ p ∈ ps, '/' ∉ p) → pieces (['/'].intercalate ps) = ps
  | [], h, _ => absurd rfl h
  | [p], _, h => by
    rw [List.intercalate_singleton]
    exact pieces_plain p (h p List.mem_cons_self)
  | p :: q :: ps, _, h => by
    rw [List.intercalate_cons_cons]
    rw [List.append_assoc]
    show pieces (p ++ '/' :: ['/'].intercalate (q :: ps)) = _
    rw [pieces_slash p _ (h p List.mem_cons_self), pieces_join (q :: ps) (by simp) fun x hx => h x (List.mem_cons_of_mem _ hx)]

theorem pieces_end : ∀ s, pieces (s ++ ['/']) = pieces s ++ [[]]
  | [] => rfl
  | c :: cs => by
    rw [List.cons_append, pieces, pieces, pieces_end cs]
    split
    · rfl
    · cases h : pieces cs with
      | nil => exact absurd h (pieces_ne_nil cs)
      | cons p ps => rfl

theorem comps_end (s : List Char) : comps (s ++ ['/']) = comps s := by
  unfold comps
  rw [pieces_end, List.filterMap_append]
  simp [comp]

theorem comps_start (s : List Char) : comps ('/' :: s) = comps s := by
  unfold comps
  rw [pieces, if_pos rfl]
  rfl

theorem comp_ofComp (c : Comp) (h : ∀ n, c = .name n → Plain n) : comp (ofComp c) = some c := by
  cases c with
  | up => rfl
  | name n =>
    obtain ⟨h1, -, -, h4, h5⟩ := h n rfl
    show comp n = _
    unfold comp
    rw [if_neg (by rintro (h | h); exact h1 h; exact h4 h), if_neg h5]

theorem slash_ofComp (c : Comp) (h : ∀ n, c = .name n → Plain n) : '/' ∉ ofComp c := by
  cases c with
  | up => decide
  | name n => exact (h n rfl).2.1

/-- The characters of a path without its root. -/
def body (p : PathBuf) : List Char := ['/'].intercalate (p.comps.map ofComp)

theorem comps_body {p : PathBuf} (hp : PlainPath p) : comps (body p) = p.comps := by
  have hc : ∀ c ∈ p.comps, ∀ n, c = .name n → Plain n := fun c hc n hn => hp.2 n (hn ▸ hc)
  unfold comps body
  rw [pieces_join _ (by simpa using hp.1) (by
    intro x hx
    obtain ⟨c, hm, rfl⟩ := List.mem_map.1 hx
    exact slash_ofComp c (hc c hm))]
  rw [List.filterMap_map]
  have : ∀ c ∈ p.comps, (comp ∘ ofComp) c = some c := fun c hm => comp_ofComp c (hc c hm)
  clear hc hp
  generalize p.comps = cs at this
  induction cs with
  | nil => rfl
  | cons c cs ih =>
    rw [List.filterMap_cons, this c List.mem_cons_self, ih fun c hm => this c (List.mem_cons_of_mem _ hm)]

theorem comps_ofPath {p : PathBuf} (hp : PlainPath p) : comps (ofPath p) = p.comps := by
  rw [← comps_body hp]
  unfold ofPath
  split
  · exact comps_start _
  · rfl

theorem comps_dirName {p : PathBuf} (hp : PlainPath p) : comps (Pack.dirName (ofPath p)) = p.comps := by
  unfold Pack.dirName
  split
  · exact comps_ofPath hp
  · rw [comps_end]; exact comps_ofPath hp

theorem ofComp_ne (c : Comp) (h : ∀ n, c = .name n → Plain n) : ofComp c ≠ [] := by
  cases c with
  | up => decide
  | name n => exact (h n rfl).1

theorem body_head {p : PathBuf} (hp : PlainPath p) : ∃ x xs, body p = x :: xs ∧ x ≠ '/' := by
  unfold body
  cases hcs : p.comps with
  | nil => exact absurd hcs hp.1
  | cons c cs =>
    have hc : ∀ n, c = .name n → Plain n := fun n hn => hp.2 n (by rw [hcs, hn]; exact List.mem_cons_self)
    have h1 := ofComp_ne c hc
    have h2 := slash_ofComp c hc
    cases hx : ofComp c with
    | nil => exact absurd hx h1
    | cons x xs =>
      rw [hx] at h2
      have hne : x ≠ '/' := fun h => h2 (by rw [h]; exact List.mem_cons_self)
      cases cs with
      | nil => exact ⟨x, xs, by simp [hx], hne⟩
      | cons d ds => exact ⟨x, xs ++ ['/'] ++ ['/'].intercalate ((d :: ds).map ofComp), by
          rw [List.map_cons, List.map_cons, List.intercalate_cons_cons, hx]; simp, hne⟩

theorem ofPath_head {p : PathBuf} (hp : PlainPath p) : (ofPath p).head? = some '/' ↔ p.abs = true := by
  obtain ⟨x, xs, hb, hne⟩ := body_head hp
  show ((if p.abs then ['/'] else []) ++ body p).head? = _ ↔ _
  rw [hb]
  cases p.abs <;> simp [hne]

theorem dirName_head {p : PathBuf} (hp : PlainPath p) : (Pack.dirName (ofPath p)).head? = some '/' ↔ p.abs = true := by
  unfold Pack.dirName
  split
  · exact ofPath_head hp
  · rw [← ofPath_head hp]
    cases h : ofPath p with
    | nil =>
      obtain ⟨x, xs, hb, hne⟩ := body_head hp
      have : (if p.abs then ['/'] else []) ++ body p = [] := h
      rw [hb] at this
      simp at this
    | cons c cs => simp

/-- The last character is that of the last component. -/
theorem join_last : ∀ (ps : List (List Char)) (q : List Char), q ≠ [] → (['/'].intercalate (ps ++ [q])).getLast? = q.getLast?
  | [], q, _ => by simp
  | [p], q, hq => by
    simp [List.intercalate_cons_cons, List.getLast?_append, List.getLast?_cons]
    cases q with
    | nil => exact absurd rfl hq
    | cons a as => simp [List.getLast?_cons]
  | p :: p' :: ps, q, hq => by
    rw [List.cons_append, List.cons_append, List.intercalate_cons_cons, List.getLast?_append, ← List.cons_append, join_last (p' :: ps) q hq]
    cases q with
    | nil => exact absurd rfl hq
    | cons a as => simp [List.getLast?_cons]

theorem ofPath_last {p : PathBuf} {cs : List Comp} {c : Comp} (hp : PlainPath p) (hc : p.comps = cs ++ [c]) : (ofPath p).getLast? = (ofComp c).getLast? := by
  have hne : ofComp c ≠ [] := ofComp_ne c fun n hn => hp.2 n (by rw [hc, hn]; simp)
  show ((if p.abs then ['/'] else []) ++ ['/'].intercalate (p.comps.map ofComp)).getLast? = _
  rw [List.getLast?_append, hc, List.map_append, List.map_cons, List.map_nil, join_last _ _ hne]
  cases h : ofComp c with
  | nil => exact absurd h hne
  | cons a as => simp [List.getLast?_cons]

theorem ofPath_last_slash {p : PathBuf} (hp : PlainPath p) : (ofPath p).getLast? ≠ some '/' := by
  have hc : p.comps = p.comps.dropLast ++ [p.comps.getLast hp.1] := (List.dropLast_concat_getLast hp.1).symm
  rw [ofPath_last hp hc]
  intro h
  exact slash_ofComp (p.comps.getLast hp.1) (fun n hn => hp.2 n (hn ▸ List.getLast_mem hp.1)) (List.mem_of_getLast? h)

theorem dirName_ofPath {p : PathBuf} (hp : PlainPath p) : Pack.dirName (ofPath p) = ofPath p ++ ['/'] := by
  unfold Pack.dirName
  rw [if_neg (ofPath_last_slash hp)]

theorem mem_intercalate {x c : Char} : ∀ {ps : List (List Char)}, x ∈ [c].intercalate ps → x = c ∨ ∃ p ∈ ps, x ∈ p
  | [], h => by simp at h
  | [p], h => by
    rw [List.intercalate_singleton] at h
    exact .inr ⟨p, List.mem_cons_self, h⟩
  | p :: q :: ps, h => by
    rw [List.intercalate_cons_cons, List.mem_append, List.mem_append] at h
    rcases h with (h | h) | h
    · exact .inr ⟨p, List.mem_cons_self, h⟩
    · exact .inl (List.mem_singleton.1 h)
    · rcases mem_intercalate h with h | ⟨y, hy, h⟩
      · exact .inl h
      · exact .inr ⟨y, List.mem_cons_of_mem _ hy, h⟩

theorem nul_ofPath {p : PathBuf} (hp : PlainPath p) : '\x00' ∉ ofPath p := by
  intro h
  rcases List.mem_append.1 h with h | h
  · split at h <;> revert h <;> decide
  · rcases mem_intercalate h with h | ⟨y, hy, h⟩
    · exact absurd h (by decide)
    · obtain ⟨c, hc, rfl⟩ := List.mem_map.1 hy
      cases c with
      | up => revert h; decide
      | name n => exact (hp.2 n hc).2.2.1 h

theorem depthOk_iff : ∀ (cs : List Comp) (d : Nat), depthOk d cs = false ↔ ∃ pre, pre <+: cs ∧ d + pre.length < 2 * pre.count .up
  | [], d => by
    constructor
    · intro h; cases h
    · rintro ⟨pre, h, hl⟩
      rw [List.prefix_nil.1 h] at hl
      simp at hl
  | .up :: cs, 0 => by
    refine ⟨fun _ => ⟨[.up], ⟨cs, rfl⟩, by decide⟩, fun _ => by simp [depthOk]⟩
  | .up :: cs, d + 1 => by
    rw [depthOk, depthOk_iff cs d]
    constructor
    · rintro ⟨pre, h, hl⟩
      refine ⟨.up :: pre, by simpa using h, ?_⟩
      rw [List.count_cons_self, List.length_cons]; omega
    · rintro ⟨pre, h, hl⟩
      cases pre with
      | nil => simp at hl
      | cons c pre =>
        obtain ⟨rfl, h2⟩ := List.cons_prefix_cons.1 h
        refine ⟨pre, h2, ?_⟩
        rw [List.count_cons_self, List.length_cons] at hl; omega
  | .name n :: cs, d => by
    rw [depthOk, depthOk_iff cs (d + 1)]
    constructor
    · rintro ⟨pre, h, hl⟩
      refine ⟨.name n :: pre, by simpa using h, ?_⟩
      rw [List.count_cons_of_ne (by simp), List.length_cons]; omega
    · rintro ⟨pre, h, hl⟩
      cases pre with
      | nil => simp at hl
      | cons c pre =>
        obtain ⟨rfl, h2⟩ := List.cons_prefix_cons.1 h
        refine ⟨pre, h2, ?_⟩
        rw [List.count_cons_of_ne (by simp), List.length_cons] at hl; omega

theorem depthOk_names : ∀ (ns : List Name) (d : Nat), depthOk d (ns.map .name) = true
  | [], d => by cases d <;> rfl
  | n :: ns, d => by rw [List.map_cons, depthOk]; exact depthOk_names ns (d + 1)

end Volaris.ZipName
