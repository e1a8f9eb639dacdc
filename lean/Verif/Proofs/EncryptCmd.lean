import Verif.Proofs.Stages
/-!
# The encrypt command
-/
namespace Volaris

/-- With the header in a file of its own: the two files together decrypt to the input. -/
theorem encrypt_detached_decrypts {C : Crypto} (hC : C.Lawful) (req : Encrypt.Request) {hw : Nat} {w w' : World}
    (hv : req.headerType.version = .v5) (hh : req.headerWriter = some hw) (hne : req.reader ≠ req.writer) (hhw : hw ≠ req.writer)
    (hino : (w.fd req.reader).ino ≠ (w.fd req.writer).ino)
    (hinoh : (w.fd req.reader).ino ≠ (w.fd hw).ino) (hinow : (w.fd hw).ino ≠ (w.fd req.writer).ino)
    (hns : ∀ k, Io.short k ∉ w.sched) (hdest : w.data req.writer = []) (hdesth : w.data hw = []) (hok : Encrypt.execute C req w = (.ok (), w')) :
    Spec.DecryptsTo C req.rawKey (w'.file (w.fd hw).ino ++ w'.file (w.fd req.writer).ino) (w.data req.reader) := by
  obtain ⟨hb, aad, c, k, henc, h1, h2⟩ := encrypt_detached_content hC req hh hne hhw hino hinoh hinow hns hok
  rw [hdesth, List.drop_nil, List.append_nil] at h1
  rw [hdest, List.drop_nil, List.append_nil] at h2
  obtain ⟨hlen, hd, mk, ht, hi, hr, hbody⟩ := henc.fileOf hC (.inl hv)
  rw [h1, h2]
  apply Spec.FileOf.decrypts hC
  refine ⟨hd, aad, mk, hi c, hr, ?_⟩
  rw [ht, List.drop_left' hlen]; exact hbody

theorem encrypt_embedded_decrypts {C : Crypto} (hC : C.Lawful) (req : Encrypt.Request) {w w' : World}
    (hv : req.headerType.version = .v5) (hh : req.headerWriter = none) (hne : req.reader ≠ req.writer)
    (hino : (w.fd req.reader).ino ≠ (w.fd req.writer).ino)
    (hns : ∀ k, Io.short k ∉ w.sched) (hdest : w.data req.writer = []) (hok : Encrypt.execute C req w = (.ok (), w')) :
    Spec.DecryptsTo C req.rawKey (w'.file (w.fd req.writer).ino) (w.data req.reader) := by
  obtain ⟨hb, aad, c, k, henc, h1⟩ := encrypt_embedded_content hC req hh hne hino hns hok
  rw [hdest, List.drop_nil, List.append_nil] at h1
  obtain ⟨hlen, hd, mk, ht, hi, hr, hbody⟩ := henc.fileOf hC (.inl hv)
  rw [h1]
  apply Spec.FileOf.decrypts hC
  refine ⟨hd, aad, mk, hi c, hr, ?_⟩
  rw [ht, List.drop_left' hlen]; exact hbody

end Volaris

namespace Volaris.Cli
open Volaris.Spec
variable {σ : Type}

theorem Supplies.congr {words : List (List Char)} {cwd : Path} {state : PasswordState} {key : Key} {w w' : World} {x : Bytes}
    (hf : w'.file = w.file) (hd : w'.dir = w.dir) (hi : w'.stdin = w.stdin) (ht : w'.tty = w.tty) (he : w'.env = w.env) (hr : w'.rng = w.rng)
    (h : Supplies words cwd state key w x) : Supplies words cwd state key w' x := by
  unfold Supplies at h ⊢
  cases key with
  | keyfile path =>
    simp only at h ⊢
    rw [hi]
    split
    · next hp => rw [if_pos hp] at h; exact h
    · next hp =>
      rw [if_neg hp] at h
      obtain ⟨q, i, h1, h2⟩ := h
      refine ⟨q, i, ⟨?_, ?_⟩, by rw [hf]; exact h2⟩
      · rw [World.resolve_congr hd]; exact h1.resolve
      · rw [World.look_congr hd]; exact h1.look
  | env => simp only at h ⊢; rw [he]; exact h
  | generate n =>
    simp only at h ⊢
    have : ∀ i, supplied w' i = supplied w i := fun i => by unfold supplied; rw [hr]
    simp only [this]; exact h
  | user => simp only at h ⊢; rw [ht]; exact h

theorem consent_answered (cwd : Path) (name : List Char) (force : ForceMode) (w : World) : OnlyAnswered w (consent cwd name force w).2 := by
  unfold consent
  rw [Prog.bind_run]
  have hrefl : ∀ u : World, OnlyAnswered u u := fun u => ⟨rfl, List.suffix_refl _, List.suffix_refl _, List.suffix_refl _⟩
  by_cases ho : Occupied w (toPath cwd name)
  · rw [overwriteCheck_occupied force ho]
    cases force with
    | forced => exact hrefl w
    | prompt =>
      rcases getAnswer_cases (overwritePrompt name) true w with ⟨b, rest, s, h1, h2, h3, h4⟩ | ⟨e, rest, s, o, h1, h2, h3, _⟩
      · rw [h3]; cases b <;> exact ⟨rfl, h1, h2, List.suffix_append _ _⟩
      · rw [h3]; exact ⟨rfl, h1, h2, List.suffix_append _ _⟩
  · rw [overwriteCheck_free force ho]; exact hrefl w

/-- Everything up to the erasing of the input went well. -/
def Sealed (s : Sys σ) (input output : List Char) (params : CryptoParams) (w v : World) : Prop :=
  ∃ q i secret, LeadsToFile w (toPath s.cwd input) q i ∧ SuppliedTo s .validate params.key w secret ∧
    (s.C.Lawful → (∀ k, Io.short k ∉ w.sched) → Separate s.cwd input output params.header w →
      Preserves s.C s.cwd output params.header secret (w.file i) q i v)

theorem streamOf_file (p : PathBuf) (h : Nat) (w : World) : streamOf (.file p h) w = (.ok h, w) := rfl
theorem streamOf_dir (p : PathBuf) (w : World) : streamOf (.dir p) w = (.err (.storage .fileAccess), w) := rfl

theorem flushFile_within (p : PathBuf) (h : Nat) : Within [] [] (Storage.flushFile (.file p h)) := by
  unfold Storage.flushFile
  exact .bind (.lift _) fun _ => .mapErr _ (.flush _)

theorem flushOpt_within (e : Option Storage.Entry) : Within [] [] (flushOpt e) := by
  cases e with
  | none => exact .pure _
  | some e =>
    unfold flushOpt
    cases e with
    | file p h => exact .mapErr _ (flushFile_within p h)
    | dir p => exact .mapErr _ (.bind (.lift _) fun _ => .mapErr _ (.flush _))

theorem flushOpt_shrinks (e : Option Storage.Entry) : Shrinks (flushOpt e) := by
  cases e with
  | none => exact .pure _
  | some e => exact .mapErr _ (.bind (.lift _) fun _ => .mapErr _ (.flush _))

theorem flushFile_shrinks (e : Storage.Entry) : Shrinks (Storage.flushFile e) := .bind (.lift _) fun _ => .mapErr _ (.flush _)

/-- The request of the encrypt command. -/
def encryptRequest (params : CryptoParams) (algorithm : Algorithm) (reader writer : Nat) (header : Option Storage.Entry) (rawKey : Bytes) : Encrypt.Request :=
  { reader, writer, headerWriter := optStream header, rawKey, headerType := headerType algorithm, hashingAlgorithm := params.hashingAlgorithm }

/-- Encrypting and flushing: if it succeeds the encryption did, and flushing changes nothing. -/
theorem encryptBody_wp (s : Sys σ) (params : CryptoParams) (algorithm : Algorithm) (pi po : PathBuf) (hi ho : Nat) (header : Option Storage.Entry) (rawKey : Bytes) (w : World) :
    wp (encryptBody s params algorithm (.file pi hi) (.file po ho) header rawKey) (fun r w' =>
      Touches [hi] (encryptRequest params algorithm hi ho header rawKey).writers w w' ∧ w'.sched <:+ w.sched ∧
      (r = .ok () → ∃ w1, Encrypt.execute s.C (encryptRequest params algorithm hi ho header rawKey) w = (.ok (), w1) ∧ w'.core = w1.core)) w := by
  unfold encryptBody
  refine wp_bind (fun a w' h => ?_) (fun e w' h => by cases h) (fun e w' h => by cases h)
  rw [streamOf_file] at h; cases h
  refine wp_bind (fun a w' h => ?_) (fun e w' h => by cases h) (fun e w' h => by cases h)
  rw [streamOf_file] at h; cases h
  change wp ((Encrypt.execute s.C (encryptRequest params algorithm hi ho header rawKey)).mapErr Error.encrypt >>= _) _ w
  have hsh : Shrinks ((Encrypt.execute s.C (encryptRequest params algorithm hi ho header rawKey)).mapErr Error.encrypt) := .mapErr _ (.encrypt _ _)
  have hwi : Within [hi] (encryptRequest params algorithm hi ho header rawKey).writers
      ((Encrypt.execute s.C (encryptRequest params algorithm hi ho header rawKey)).mapErr Error.encrypt) := .mapErr _ (encrypt_within s.C (encryptRequest params algorithm hi ho header rawKey))
  have noCore : ∀ {u u' : World}, Touches [] [] u u' → u'.file = u.file := fun h => funext fun i => h.files i (by simp)
  refine wp_bind (fun a w1 h => ?_) (fun e w1 h => ?_) (fun e w1 h => ?_)
  · have h1 := hwi w; have h2 := hsh w
    rw [h] at h1 h2
    have hex : ∃ w2, Encrypt.execute s.C (encryptRequest params algorithm hi ho header rawKey) w = (.ok (), w2) ∧ w1 = w2 := by
      rw [Prog.mapErr_run] at h
      rcases hx : Encrypt.execute s.C (encryptRequest params algorithm hi ho header rawKey) w with ⟨r, w2⟩
      rw [hx] at h
      cases r with
      | ok a => cases h; exact ⟨w1, rfl, rfl⟩
      | err e => cases h
      | abort a => cases h
    obtain ⟨w2, hx, rfl⟩ := hex
    have fcases : ∀ (e : Option Storage.Entry) (u : World), ∃ r u', flushOpt e u = (r, u') ∧ u'.core = u.core ∧ u'.sched <:+ u.sched := by
      intro e u
      refine ⟨_, _, rfl, ?_, flushOpt_shrinks e u⟩
      cases e with
      | none => rfl
      | some e =>
        cases e with
        | dir p => rfl
        | file p h =>
          show ((flushOpt (some (.file p h))) u).2.core = _
          rw [flushOpt]
          unfold Storage.flushFile
          rw [Prog.mapErr_run, Prog.bind_run]
          simp only [Storage.Entry.stream, Prog.lift_run]
          rw [Prog.mapErr_run]
          rcases flush_spec h u with ⟨u', he, hc⟩ | ⟨e, u', he, hc⟩ <;> rw [he] <;> exact hc
    refine wp_bind (fun a w3 h3 => ?_) (fun e w3 h3 => ?_) (fun e w3 h3 => ?_)
    · obtain ⟨r, u', g1, g2, g3⟩ := fcases header w1
      rw [h3] at g1; cases g1
      obtain ⟨r, u', k1, k2, k3⟩ := fcases (some (.file po ho)) w3
      show _ ∧ _ ∧ _
      change ((Storage.flushFile (.file po ho)).mapErr Error.storage) w3 = (r, u') at k1
      rw [k1]
      exact ⟨(h1.core_right g2).core_right k2, (k3.trans g3).trans h2, fun _ => ⟨w1, hx, k2.trans g2⟩⟩
    · obtain ⟨r, u', g1, g2, g3⟩ := fcases header w1
      rw [h3] at g1; cases g1
      exact ⟨h1.core_right g2, g3.trans h2, fun h => by cases h⟩
    · obtain ⟨r, u', g1, g2, g3⟩ := fcases header w1
      rw [h3] at g1; cases g1
      exact ⟨h1.core_right g2, g3.trans h2, fun h => by cases h⟩
  · have h1 := hwi w; have h2 := hsh w
    rw [h] at h1 h2
    exact ⟨h1, h2, fun h => by cases h⟩
  · have h1 := hwi w; have h2 := hsh w
    rw [h] at h1 h2
    exact ⟨h1, h2, fun h => by cases h⟩

/-- Before the encryption: the input has been opened, output and header file have been opened and emptied. -/
structure Ready (s : Sys σ) (input output : List Char) (params : CryptoParams) (w : World) (e : Storage.Entry) (ho : Nat) (hf : Option Storage.Entry) (qo : Path) (j : Nat) (v : World) : Prop where
  trail : Trail (Targets s.cwd output params w) w v
  out : LeadsToFile v (toPath s.cwd output) qo j
  handle : v.fd ho = { ino := j, pos := 0 }
  empty : v.file j = []
  target : w.nextIno ≤ j ∨ Targets s.cwd output params w qo ∧ w.look qo = some (.file j)
  inp : (∃ p, e = .dir p) ∨ ∃ h0 q i, e = .file (toPath s.cwd input) h0 ∧ LeadsToFile w (toPath s.cwd input) q i ∧ v.fd h0 = { ino := i, pos := 0 } ∧ h0 ≠ ho
  header : (hf = none ∧ params.header = none) ∨
    ∃ hd h2 qh k, params.header = some hd ∧ hf = some (.file (toPath s.cwd hd) h2) ∧ LeadsToFile v (toPath s.cwd hd) qh k ∧ v.fd h2 = { ino := k, pos := 0 } ∧
      v.file k = [] ∧ h2 ≠ ho ∧ (w.nextIno ≤ k ∨ Targets s.cwd output params w qh ∧ w.look qh = some (.file k)) ∧
      (Separate s.cwd input output params.header w → k ≠ j)

namespace Ready
variable {s : Sys σ} {input output : List Char} {params : CryptoParams} {w v : World} {e : Storage.Entry} {ho : Nat} {hf : Option Storage.Entry} {qo : Path} {j : Nat}

/-- A file that is new or was where `p'` leads is not the one where `p` leads, if the paths are apart. -/
theorem apart_ne (hal : Allocated w) (ht : Trail (Targets s.cwd output params w) w v) {p p' : PathBuf} (ha : Apart w p p') {q q' : Path} {i k : Nat} {P : Prop} (hp : LeadsToFile w p q i)
    (hp' : LeadsToFile v p' q' k) (hk : w.nextIno ≤ k ∨ P ∧ w.look q' = some (.file k)) : q' ≠ q ∧ k ≠ i := by
  have hr : w.resolve p' = .ok q' := (ht.resolves p' q').1 hp'.resolve
  refine ⟨?_, ?_⟩
  · rintro rfl
    exact ha.1 q' hp.resolve hr
  · rintro rfl
    rcases hk with hk | ⟨_, hk⟩
    · have := hal q k hp.look
      omega
    · exact ha.2 q q' k hp ⟨hr, hk⟩

end Ready

/-- The rest of the command, from the encryption on. -/
theorem encrypt_rest_wp (s : Sys σ) (input output : List Char) (params : CryptoParams) (algorithm : Algorithm) {w v : World} {e : Storage.Entry} {ho : Nat} {hf : Option Storage.Entry}
    {qo : Path} {j : Nat} {secret : Bytes} (hready : Ready s input output params w e ho hf qo j v) (hsec : SuppliedTo s .validate params.key w secret) :
    wp (do
        encryptBody s params algorithm e (.file (toPath s.cwd output) ho) hf secret
        hashIf s params.hashMode output
        eraseIf s params.erase params.force input)
      (fun r w' => (Trail (Targets s.cwd output params w) w w' ∧ r ≠ .ok ()) ∨
        ∃ u, Trail (Targets s.cwd output params w) w u ∧ Sealed s input output params w u ∧ (r, w') = eraseIf s params.erase params.force input u) v := by
  rcases hready.inp with ⟨p, rfl⟩ | ⟨h0, q, i, rfl, hin, hfd0, hne0⟩
  · refine wp_bind (fun a w' h => ?_) (fun e w' h => ?_) (fun e w' h => ?_) <;>
      (unfold encryptBody at h; rw [Prog.bind_err (streamOf_dir p v)] at h; cases h)
    exact .inl ⟨hready.trail, by simp⟩
  · have hb := encryptBody_wp s params algorithm (toPath s.cwd input) (toPath s.cwd output) h0 ho hf secret v
    have htr : ∀ w', Touches [h0] (encryptRequest params algorithm h0 ho hf secret).writers v w' → w'.sched <:+ v.sched →
        Trail (Targets s.cwd output params w) w w' := by
      intro w' ht hs
      refine hready.trail.touch ?_ ht hs
      intro h hh
      have hcase : h = ho ∨ ∃ p h2, hf = some (.file p h2) ∧ h = h2 := by
        rcases hready.header with ⟨rfl, _⟩ | ⟨hd, h2, qh, k, _, rfl, _⟩
        · simp only [encryptRequest, optStream, Encrypt.Request.writers, List.mem_singleton] at hh
          exact .inl hh
        · simp only [encryptRequest, optStream, Encrypt.Request.writers, List.mem_cons, List.not_mem_nil, or_false] at hh
          rcases hh with hh | hh
          · exact .inr ⟨_, _, rfl, hh⟩
          · exact .inl hh
      rcases hcase with rfl | ⟨p, h2, hfe, rfl⟩
      · rw [hready.handle]
        rcases hready.target with h | h
        · exact .inl h
        · exact .inr ⟨qo, h.1, h.2⟩
      · rcases hready.header with ⟨hn, _⟩ | ⟨hd, h2', qh, k, _, hfe', _, hfd2, _, _, htk, _⟩
        · rw [hn] at hfe; cases hfe
        · rw [hfe] at hfe'; cases hfe'
          rw [hfd2]
          rcases htk with h | h
          · exact .inl h
          · exact .inr ⟨qh, h.1, h.2⟩
    refine wp_bind (fun a w1 h => ?_) (fun e w1 h => ?_) (fun e w1 h => ?_)
    all_goals
      unfold wp at hb
      rw [h] at hb
      obtain ⟨hb1, hb2, hb3⟩ := hb
    · obtain ⟨w2, hx, hcore⟩ := hb3 rfl
      have ht1 := htr w1 hb1 hb2
      have hsealed : s.C.Lawful → (∀ k, Io.short k ∉ w.sched) → Separate s.cwd input output params.header w →
          Preserves s.C s.cwd output params.header secret (w.file i) q i w1 := by
        intro hC hns hsep
        have hns' : ∀ k, Io.short k ∉ v.sched := fun k hk => hns k (hready.trail.sched.subset hk)
        obtain ⟨hqo, hji⟩ := Ready.apart_ne hsep.allocated hready.trail hsep.out hin hready.out hready.target
        have hwi : v.file i = w.file i := by
          refine hready.trail.kept (hsep.allocated q i hin.look) ?_
          intro x hx hl
          rcases hx with ⟨_, hx⟩ | ⟨hd, hhd, _, hx⟩
          · exact hsep.out.2 q x i hin ⟨hx, hl⟩
          · exact (hsep.hdr hd hhd).1.2 q x i hin ⟨hx, hl⟩
        have hfile : w1.file = w2.file := World.file_of_core hcore
        have hlo : LeadsToFile w1 (toPath s.cwd output) qo j :=
          ⟨by rw [World.resolve_congr hb1.dir]; exact hready.out.resolve, by rw [World.look_congr hb1.dir]; exact hready.out.look⟩
        refine ⟨qo, j, hlo, hqo, hji, ?_⟩
        rcases hready.header with ⟨rfl, hn⟩ | ⟨hd, h2, qh, k, hhd, rfl, hlh, hfd2, hek, hne2, htk, hkj⟩
        · rw [hn]
          have := encrypt_embedded_decrypts hC (encryptRequest params algorithm h0 ho none secret) (w := v) (w' := w2) rfl rfl hne0
            (by simp only [encryptRequest]; rw [hfd0, hready.handle]; exact fun e => hji e.symm) hns'
            (by simp only [encryptRequest, World.data]; rw [hready.handle]; exact hready.empty) hx
          simp only [encryptRequest, World.data] at this
          rw [hready.handle, hfd0] at this
          simp only at this
          rw [hfile, ← hwi]; exact this
        · have hkj' := hkj hsep
          rw [hhd] at hsep ⊢
          obtain ⟨hqh, hki⟩ := Ready.apart_ne hsep.allocated hready.trail (hsep.hdr hd rfl).1 hin hlh htk
          have := encrypt_detached_decrypts hC (encryptRequest params algorithm h0 ho (some (.file (toPath s.cwd hd) h2)) secret) (w := v) (w' := w2) (hw := h2) rfl rfl hne0 hne2
            (by simp only [encryptRequest]; rw [hfd0, hready.handle]; exact fun e => hji e.symm)
            (by simp only [encryptRequest]; rw [hfd0, hfd2]; exact fun e => hki e.symm)
            (by simp only [encryptRequest]; rw [hfd2, hready.handle]; exact hkj') hns'
            (by simp only [encryptRequest, World.data]; rw [hready.handle]; exact hready.empty)
            (by simp only [World.data]; rw [hfd2]; exact hek) hx
          simp only [encryptRequest, World.data] at this
          rw [hready.handle, hfd0, hfd2] at this
          simp only at this
          refine ⟨qh, k, ⟨by rw [World.resolve_congr hb1.dir]; exact hlh.resolve, by rw [World.look_congr hb1.dir]; exact hlh.look⟩, hqh, hki, ?_⟩
          rw [hfile, ← hwi]; exact this
      refine wp_bind (fun a w3 h3 => ?_) (fun e w3 h3 => ?_) (fun e w3 h3 => ?_)
      all_goals
        have hl := (hashIf_looks s w1.nextFd params.hashMode output w1 (Nat.le_refl _)).1
        rw [h3] at hl
        have ht3 := ht1.trans (Trail.looked hl (Nat.le_refl _))
      · refine .inr ⟨w3, ht3, ⟨q, i, secret, hin, hsec, fun hC hns hsep => ?_⟩, rfl⟩
        obtain ⟨qo', j', h1, h2, h3, h4⟩ := hsealed hC hns hsep
        refine ⟨qo', j', (hl.leads _ _ _).2 h1, h2, h3, ?_⟩
        revert h4
        cases params.header with
        | none => simp only; rw [hl.file]; exact id
        | some hd =>
          rintro ⟨qh, k, k1, k2, k3, k4⟩
          exact ⟨qh, k, (hl.leads _ _ _).2 k1, k2, k3, by rw [hl.file]; exact k4⟩
      · exact .inl ⟨ht3, by simp⟩
      · exact .inl ⟨ht3, by simp⟩
    · exact .inl ⟨htr w1 hb1 hb2, by simp⟩
    · exact .inl ⟨htr w1 hb1 hb2, by simp⟩

/-- Consent at a later time. -/
theorem mayWrite_of_consent {F : Path → Prop} {w v v' : World} (ht : Trail F w v) {p : PathBuf} {force : ForceMode}
    (hc : ¬ Occupied v p ∨ force = .forced ∨ FirstAnswer true v.stdin true v'.stdin) : MayWrite force w p := by
  rcases hc with h | h | h
  · exact .inl fun ho => h (ht.occupied ho)
  · exact .inr (.inl h)
  · exact .inr (.inr ⟨v.stdin, v'.stdin, ht.stdin, h⟩)

/-- An entry for the input as `readInput` makes it: its handle is still at the start of the file. -/
def InputOf (s : Sys σ) (input : List Char) (w v : World) (e : Storage.Entry) : Prop :=
  (∃ p, e = .dir p) ∨ ∃ h0 q i, e = .file (toPath s.cwd input) h0 ∧ LeadsToFile w (toPath s.cwd input) q i ∧ v.fd h0 = { ino := i, pos := 0 } ∧ h0 < v.nextFd

theorem InputOf.later {s : Sys σ} {input : List Char} {w v v' : World} {e : Storage.Entry} (h : InputOf s input w v e) (hfd : ∀ x, x < v.nextFd → v'.fd x = v.fd x)
    (hn : v.nextFd ≤ v'.nextFd) : InputOf s input w v' e := by
  rcases h with h | ⟨h0, q, i, h1, h2, h3, h4⟩
  · exact .inl h
  · exact .inr ⟨h0, q, i, h1, h2, by rw [hfd h0 h4]; exact h3, by omega⟩

/-- Opening the output, the header file, and the rest. -/
theorem encrypt_open_wp (s : Sys σ) (input output : List Char) (params : CryptoParams) (algorithm : Algorithm) {w v : World} {e : Storage.Entry} {secret : Bytes}
    (ht : Trail (Targets s.cwd output params w) w v) (hm : MayWrite params.force w (toPath s.cwd output)) (hino : v.nextIno = w.nextIno) (hlook : ∀ x, v.look x = w.look x)
    (hin : InputOf s input w v e) (hsec : SuppliedTo s .validate params.key w secret) :
    wp (do
        let outputFile ← openOutput (toPath s.cwd output)
        let headerFile ← openHeader s params.force params.header
        encryptBody s params algorithm e outputFile headerFile secret
        hashIf s params.hashMode output
        eraseIf s params.erase params.force input)
      (fun r w' => (Trail (Targets s.cwd output params w) w w' ∧ r ≠ .ok ()) ∨
        ∃ u, Trail (Targets s.cwd output params w) w u ∧ Sealed s input output params w u ∧ (r, w') = eraseIf s params.erase params.force input u) v := by
  rcases openOutput_cases (toPath s.cwd output) v with ⟨qo, j, w4, he4, ho⟩ | ⟨x, sc, hsc, he4⟩
  · have hT : Targets s.cwd output params w qo := .inl ⟨hm, (ht.resolves _ _).1 ho.resolve⟩
    have ht4 := ht.trans (Trail.opened ho hT)
    have hout4 : LeadsToFile w4 (toPath s.cwd output) qo j := ⟨(ho.resolves _ _).2 ho.resolve, ho.now⟩
    have htar : w.nextIno ≤ j ∨ Targets s.cwd output params w qo ∧ w.look qo = some (.file j) := by
      rcases ho.was with ⟨_, h2, _⟩ | ⟨h1, _⟩
      · left; omega
      · exact .inr ⟨hT, by rw [← hlook]; exact h1⟩
    have hin4 : InputOf s input w w4 e := hin.later (fun x hx => ho.fds x (by omega)) (by rw [ho.nextFd]; omega)
    have hne4 : ∀ {h0 q i}, e = .file (toPath s.cwd input) h0 ∧ LeadsToFile w (toPath s.cwd input) q i ∧ v.fd h0 = { ino := i, pos := 0 } ∧ h0 < v.nextFd → h0 ≠ v.nextFd :=
      fun h => by omega
    refine wp_bind (fun a w' h => ?_) (fun x w' h => by rw [he4] at h; cases h) (fun x w' h => by rw [he4] at h; cases h)
    rw [he4] at h; cases h
    cases hh : params.header with
    | none =>
      refine wp_bind (fun a w' h => ?_) (fun x w' h => by cases h) (fun x w' h => by cases h)
      cases h
      refine encrypt_rest_wp s input output params algorithm (ho := v.nextFd) ⟨ht4, hout4, ho.handle, ho.empty, htar, ?_, .inl ⟨rfl, hh⟩⟩ hsec
      rcases hin with h | ⟨h0, q, i, h1, h2, h3, h4⟩
      · exact .inl h
      · exact .inr ⟨h0, q, i, h1, h2, by rw [ho.fds h0 (by omega)]; exact h3, by omega⟩
    | some hd =>
      have hc := consent_wp s.cwd hd params.force w4
      unfold wp at hc
      rcases hce : consent s.cwd hd params.force w4 with ⟨rc, w5⟩
      rw [hce] at hc
      obtain ⟨hl5, hc5⟩ := hc
      replace hl5 : Looked w4.nextFd w4 w5 := hl5
      have ht5 := ht4.trans (Trail.looked hl5 (Nat.le_refl _))
      have hopen : openHeader s params.force (some hd) = (do
          consent s.cwd hd params.force
          let e ← openOutput (toPath s.cwd hd)
          pure (some e)) := rfl
      cases rc with
      | err x =>
        have : openHeader s params.force (some hd) w4 = (.err x, w5) := by rw [hopen]; exact Prog.bind_err hce
        refine wp_bind (fun a w' h => by rw [this] at h; cases h) (fun x w' h => ?_) (fun x w' h => by rw [this] at h; cases h)
        rw [this] at h; cases h
        exact .inl ⟨ht5, by simp⟩
      | abort x =>
        have : openHeader s params.force (some hd) w4 = (.abort x, w5) := by rw [hopen]; exact Prog.bind_abort hce
        refine wp_bind (fun a w' h => by rw [this] at h; cases h) (fun x w' h => by rw [this] at h; cases h) (fun x w' h => ?_)
        rw [this] at h; cases h
        exact .inl ⟨ht5, by simp⟩
      | ok u =>
        have hmh : MayWrite params.force w (toPath s.cwd hd) := mayWrite_of_consent ht4 (hc5 rfl)
        rcases openOutput_cases (toPath s.cwd hd) w5 with ⟨qh, k, w6, he6, ho6⟩ | ⟨x, sc, hsc, he6⟩
        · have hT6 : Targets s.cwd output params w qh := .inr ⟨hd, hh, hmh, (ht5.resolves _ _).1 ho6.resolve⟩
          have ht6 := ht5.trans (Trail.opened ho6 hT6)
          have this : openHeader s params.force (some hd) w4 = (.ok (some (.file (toPath s.cwd hd) w5.nextFd)), w6) := by
            rw [hopen, Prog.bind_ok hce, Prog.bind_ok he6]; rfl
          refine wp_bind (fun a w' h => ?_) (fun x w' h => by rw [this] at h; cases h) (fun x w' h => by rw [this] at h; cases h)
          rw [this] at h; cases h
          have hlt : v.nextFd < w5.nextFd := by have := hl5.nextFd; have := ho.nextFd; omega
          have hjlt : j < w.nextIno ∨ w.nextIno ≤ j := by omega
          have h5file : w5.file = w4.file := hl5.file
          refine encrypt_rest_wp s input output params algorithm (ho := v.nextFd) (j := j) (qo := qo)
            ⟨ht6, ?_, ?_, ?_, htar, ?_, .inr ⟨hd, w5.nextFd, qh, k, hh, rfl, ⟨(ho6.resolves _ _).2 ho6.resolve, ho6.now⟩, ho6.handle, ho6.empty, by omega, ?_, ?_⟩⟩ hsec
          · exact ho6.leads ((hl5.leads _ _ _).2 hout4)
          · rw [ho6.fds _ (by omega), hl5.fds _ (by rw [ho.nextFd]; omega)]; exact ho.handle
          · by_cases hkj : j = k
            · rw [hkj]; exact ho6.empty
            · rw [ho6.files j hkj, h5file]; exact ho.empty
          · rcases hin with h | ⟨h0, q, i, h1, h2, h3, h4⟩
            · exact .inl h
            · refine .inr ⟨h0, q, i, h1, h2, ?_, by omega⟩
              rw [ho6.fds h0 (by omega), hl5.fds h0 (by rw [ho.nextFd]; omega), ho.fds h0 (by omega)]; exact h3
          · rcases ho6.was with ⟨_, h2, _⟩ | ⟨h1, _⟩
            · left
              have := ht5.extracts.nextIno
              omega
            · by_cases hk : w.nextIno ≤ k
              · exact .inl hk
              · exact .inr ⟨hT6, ht5.extracts.links (by omega) h1⟩
          · intro hsep hkj
            subst hkj
            have hr6 : w.resolve (toPath s.cwd hd) = .ok qh := (ht5.resolves _ _).1 ho6.resolve
            have hr4 : w.resolve (toPath s.cwd output) = .ok qo := (ht.resolves _ _).1 ho.resolve
            obtain ⟨ha1, ha2⟩ := (hsep.hdr hd hh).2
            have hqq : qh ≠ qo := fun e => ha1 qo hr4 (e ▸ hr6)
            rcases ho6.was with ⟨_, h2, _⟩ | ⟨h1, _⟩
            · have h3 := hl5.nextIno
              rcases ho.was with ⟨_, g2, g3⟩ | ⟨g1, g3⟩
              · omega
              · rw [hlook] at g1
                have := hsep.allocated _ _ g1
                omega
            · have hw : w.look qh = some (.file k) := by
                rw [← hlook, ← ho.others qh hqq, ← hl5.look]; exact h1
              have hk := hsep.allocated _ _ hw
              rcases htar with h | ⟨_, h⟩
              · omega
              · exact ha2 qo qh k ⟨hr4, h⟩ ⟨hr6, hw⟩
        · have ht6 : Trail (Targets s.cwd output params w) w { w5 with sched := sc } := ht5.trans (Trail.looked (Looked.of_sched w5.nextFd w5 hsc) (Nat.le_refl _))
          have this : openHeader s params.force (some hd) w4 = (.err x, { w5 with sched := sc }) := by
            rw [hopen, Prog.bind_ok hce, Prog.bind_err he6]
          refine wp_bind (fun a w' h => by rw [this] at h; cases h) (fun x w' h => ?_) (fun x w' h => by rw [this] at h; cases h)
          rw [this] at h; cases h
          exact .inl ⟨ht6, by simp⟩
  · refine wp_bind (fun a w' h => by rw [he4] at h; cases h) (fun x w' h => ?_) (fun x w' h => by rw [he4] at h; cases h)
    rw [he4] at h; cases h
    exact .inl ⟨ht.trans (Trail.looked (Looked.of_sched v.nextFd v hsc) (Nat.le_refl _)), by simp⟩

/-- The whole command: either it did not succeed and at most its targets have changed, or everything up to the erasing of the input went well and the outcome is that of the erasing. -/
theorem encryptMode_wp (s : Sys σ) (input output : List Char) (params : CryptoParams) (algorithm : Algorithm) (w : World) :
    wp (encryptMode s input output params algorithm)
      (fun r w' => (Trail (Targets s.cwd output params w) w w' ∧ r ≠ .ok ()) ∨
        ∃ u, Trail (Targets s.cwd output params w) w u ∧ Sealed s input output params w u ∧ (r, w') = eraseIf s params.erase params.force input u) w := by
  unfold encryptMode
  split
  · exact .inl ⟨.refl w, by simp [Prog.throw]⟩
  · have hc := consent_wp s.cwd output params.force w
    have ha := consent_answered s.cwd output params.force w
    unfold wp at hc
    refine wp_bind (fun a w1 h => ?_) (fun e w1 h => ?_) (fun e w1 h => ?_)
    all_goals
      rw [h] at hc ha
      obtain ⟨hl1, hc1⟩ := hc
    · have hm : MayWrite params.force w (toPath s.cwd output) := mayWrite_of_consent (F := fun _ => False) (.refl w) (hc1 rfl)
      have ht1 : Trail (Targets s.cwd output params w) w w1 := Trail.looked hl1 (Nat.le_refl _)
      have hr2 := readInput_cases (toPath s.cwd input) w1
      have hl2 := (readInput_looks w1.nextFd (toPath s.cwd input) w1 (Nat.le_refl _)).1
      refine wp_bind (fun e w2 h2 => ?_) (fun e w2 h2 => ?_) (fun e w2 h2 => ?_)
      all_goals rw [h2] at hl2 hr2
      · have hin : InputOf s input w w2 e := by
          rcases hr2 with ⟨q, i, sc, _, hq, he⟩ | ⟨q, _, he⟩ | ⟨_, _, _, he, _⟩
          · cases he
            exact .inr ⟨w1.nextFd, q, i, rfl, (hl1.leads _ _ _).1 hq, opened_fd { w1 with sched := sc } i, Nat.lt_succ_self _⟩
          · cases he; exact .inl ⟨_, rfl⟩
          · cases he
        have hsame : w2.stdin = w1.stdin ∧ w2.tty = w1.tty ∧ w2.env = w1.env ∧ w2.rng = w1.rng := by
          rcases hr2 with ⟨q, i, sc, _, hq, he⟩ | ⟨q, _, he⟩ | ⟨_, _, _, he, _⟩ <;> cases he <;> exact ⟨rfl, rfl, rfl, rfl⟩
        have ht2 := ht1.trans (Trail.looked hl2 (Nat.le_refl _))
        have hl3 := (getSecret_looks w2.nextFd s.words s.cwd params.key .validate w2 (Nat.le_refl _)).1
        refine wp_bind (fun secret w3 h3 => ?_) (fun e w3 h3 => ?_) (fun e w3 h3 => ?_)
        all_goals rw [h3] at hl3
        all_goals have ht3 := ht2.trans (Trail.looked hl3 (Nat.le_refl _))
        · obtain ⟨hne, hsup⟩ := getSecret_ok h3
          refine encrypt_open_wp s input output params algorithm ht3 hm (by rw [hl3.nextIno, hl2.nextIno, hl1.nextIno]) (fun x => by rw [hl3.look, hl2.look, hl1.look])
            (hin.later hl3.fds hl3.nextFd) ⟨hne, w1, ha, ?_⟩
          exact Supplies.congr hl2.file.symm hl2.dir.symm hsame.1.symm hsame.2.1.symm hsame.2.2.1.symm hsame.2.2.2.symm hsup
        · exact .inl ⟨ht3, by simp⟩
        · exact .inl ⟨ht3, by simp⟩
      · exact .inl ⟨ht1.trans (Trail.looked hl2 (Nat.le_refl _)), by simp⟩
      · exact .inl ⟨ht1.trans (Trail.looked hl2 (Nat.le_refl _)), by simp⟩
    · exact .inl ⟨Trail.looked hl1 (Nat.le_refl _), by simp⟩
    · exact .inl ⟨Trail.looked hl1 (Nat.le_refl _), by simp⟩

end Volaris.Cli
