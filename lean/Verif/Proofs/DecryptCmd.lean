import Verif.Proofs.EraseStage
/-!
# The decrypt command
-/
namespace Volaris
open Volaris.Spec

theorem decrypt_ok_detached {C : Crypto} (hC : C.Lawful) {pw hdr content : Bytes} {req : Decrypt.Request} {hr : Nat} {v v' : World}
    (ha : AsksDetached req v pw hdr content hr) (hns : NoShort v.sched) (hok : Decrypt.execute C req v = (.ok (), v')) :
    ∃ p, DetachedFileOf C pw hdr content p ∧ Wrote req.writer v v' p := by
  have hc := ha.content
  have hk := ha.key
  have hx := ha.hdr
  subst hc hk hx
  rcases decrypt_detached_spec hC req ha.detached ha.header.1 ha.handles v ha.start ha.files with
    ⟨hd, aad, mk, m, k, n, p, w', he, hi, hr', _, hm, hb, hcore, _⟩ | ⟨e, k, n, out, w', he, _⟩
  · rw [hok] at he; cases he
    rw [hm (.inl hns), List.take_length] at hb
    exact ⟨p, ⟨hd, aad, mk, hi, hr', hb⟩, (wrote_of_detached ha.handles ha.header.2 hcore).1⟩
  · rw [hok] at he; simp at he

end Volaris

namespace Volaris.Cli
open Volaris.Spec
variable {σ : Type}

theorem flushFile_core (p : PathBuf) (h : Nat) (u : World) :
    ∃ r u', (Storage.flushFile (.file p h)).mapErr Error.storage u = (r, u') ∧ u'.core = u.core ∧ u'.sched <:+ u.sched := by
  refine ⟨_, _, rfl, ?_, flushOpt_shrinks (some (.file p h)) u⟩
  show ((Storage.flushFile (.file p h)).mapErr Error.storage u).2.core = _
  unfold Storage.flushFile
  rw [Prog.mapErr_run, Prog.bind_run]
  simp only [Storage.Entry.stream, Prog.lift_run]
  rw [Prog.mapErr_run]
  rcases flush_spec h u with ⟨u', he, hc⟩ | ⟨e, u', he, hc⟩ <;> rw [he] <;> exact hc

def decryptRequest (header : Option Storage.Entry) (reader writer : Nat) (rawKey : Bytes) : Decrypt.Request :=
  { headerReader := optStream header, reader, writer, rawKey }

theorem decryptBody_wp (s : Sys σ) (pi po : PathBuf) (hi ho : Nat) (header : Option Storage.Entry) (rawKey : Bytes) (w : World) :
    wp (decryptBody s (.file pi hi) (.file po ho) header rawKey) (fun r w' =>
      Touches (decryptRequest header hi ho rawKey).readers [ho] w w' ∧ w'.sched <:+ w.sched ∧
      (r = .ok () → ∃ w1, Decrypt.execute s.C (decryptRequest header hi ho rawKey) w = (.ok (), w1) ∧ w'.core = w1.core)) w := by
  unfold decryptBody
  refine wp_bind (fun a w' h => ?_) (fun e w' h => by cases h) (fun e w' h => by cases h)
  rw [streamOf_file] at h; cases h
  refine wp_bind (fun a w' h => ?_) (fun e w' h => by cases h) (fun e w' h => by cases h)
  rw [streamOf_file] at h; cases h
  change wp ((Decrypt.execute s.C (decryptRequest header hi ho rawKey)).mapErr Error.decrypt >>= _) _ w
  have h2 := (Shrinks.mapErr Error.decrypt (Shrinks.decrypt s.C (decryptRequest header hi ho rawKey))) w
  have h1 := (Within.mapErr Error.decrypt (decrypt_within s.C (decryptRequest header hi ho rawKey))) w
  refine wp_bind (fun a w1 h => ?_) (fun e w1 h => ?_) (fun e w1 h => ?_)
  all_goals rw [h] at h1 h2
  · have hx : Decrypt.execute s.C (decryptRequest header hi ho rawKey) w = (.ok (), w1) := by
      rw [Prog.mapErr_run] at h
      rcases hx : Decrypt.execute s.C (decryptRequest header hi ho rawKey) w with ⟨r, w2⟩
      rw [hx] at h
      cases r with
      | ok a => cases h; rfl
      | err e => cases h
      | abort a => cases h
    obtain ⟨r, u', k1, k2, k3⟩ := flushFile_core po ho w1
    show _ ∧ _ ∧ _
    rw [k1]
    exact ⟨h1.core_right k2, k3.trans h2, fun _ => ⟨w1, hx, k2⟩⟩
  · exact ⟨h1, h2, fun h => by cases h⟩
  · exact ⟨h1, h2, fun h => by cases h⟩

/-- The header file as `readHeader` opens it. -/
def HeaderOf (s : Sys σ) (header : Option (List Char)) (w v : World) (e : Option Storage.Entry) : Prop :=
  (e = none ∧ header = none) ∨ ∃ hd, header = some hd ∧
    ((∃ p q, e = some (.dir p) ∧ LeadsToDir w (toPath s.cwd hd) q) ∨
      ∃ h2 qh k, e = some (.file (toPath s.cwd hd) h2) ∧ LeadsToFile w (toPath s.cwd hd) qh k ∧ v.fd h2 = { ino := k, pos := 0 } ∧ h2 < v.nextFd)

theorem HeaderOf.later {s : Sys σ} {header : Option (List Char)} {w v v' : World} {e : Option Storage.Entry} (h : HeaderOf s header w v e) (hfd : ∀ x, x < v.nextFd → v'.fd x = v.fd x)
    (hn : v.nextFd ≤ v'.nextFd) : HeaderOf s header w v' e := by
  rcases h with h | ⟨hd, h0, h | ⟨h2, qh, k, h3, h4, h5, h6⟩⟩
  · exact .inl h
  · exact .inr ⟨hd, h0, .inl h⟩
  · exact .inr ⟨hd, h0, .inr ⟨h2, qh, k, h3, h4, by rw [hfd h2 h6]; exact h5, by omega⟩⟩

/-- Everything up to the erasing of the input went well. -/
def Unsealed (s : Sys σ) (input output : List Char) (params : CryptoParams) (w v : World) : Prop :=
  ∃ q i secret, LeadsToFile w (toPath s.cwd input) q i ∧ SuppliedTo s .direct params.key w secret ∧
    (s.C.Lawful → (∀ k, Io.short k ∉ w.sched) → OutputApart s.cwd input output params.header w →
      Restores s.C s.cwd output params.header secret (w.file i) q i w v)

theorem apart_ne {F : Path → Prop} {w v : World} (hal : Allocated w) (ht : Trail F w v) {p p' : PathBuf} (ha : Apart w p p') {q q' : Path} {i k : Nat} {P : Prop} (hp : LeadsToFile w p q i)
    (hp' : LeadsToFile v p' q' k) (hk : w.nextIno ≤ k ∨ P ∧ w.look q' = some (.file k)) : q' ≠ q ∧ k ≠ i := by
  have hr : w.resolve p' = .ok q' := (ht.resolves p' q').1 hp'.resolve
  refine ⟨?_, ?_⟩
  · rintro rfl
    exact ha.1 q' hp.resolve hr
  · rintro rfl
    rcases hk with hk | ⟨_, hk⟩
    · have := hal q k hp.look
      omega
    · exact ha.2 q q' k hp ⟨hr, hk⟩

/-- A file that is not the output keeps its content. -/
theorem output_kept {s : Sys σ} {output : List Char} {force : ForceMode} {w v : World} (hal : Allocated w) (ht : Trail (OutputPlace s.cwd force output w) w v) {p : PathBuf}
    (ha : Apart w p (toPath s.cwd output)) {q : Path} {i : Nat} (hp : LeadsToFile w p q i) : v.file i = w.file i :=
  ht.kept (hal q i hp.look) fun x hx hl => ha.2 q x i hp ⟨hx.2, hl⟩

/-- Opening the output and the rest. -/
theorem decrypt_open_wp (s : Sys σ) (input output : List Char) (params : CryptoParams) {w v : World} {e : Storage.Entry} {hf : Option Storage.Entry} {secret : Bytes}
    (ht : Trail (OutputPlace s.cwd params.force output w) w v) (hm : MayWrite params.force w (toPath s.cwd output)) (hino : v.nextIno = w.nextIno) (hlook : ∀ x, v.look x = w.look x)
    (hin : InputOf s input w v e) (hhd : HeaderOf s params.header w v hf) (hne : ∀ p h p' h', e = .file p h → hf = some (.file p' h') → h ≠ h') (hsec : SuppliedTo s .direct params.key w secret) :
    wp (do
        let outputFile ← openOutput (toPath s.cwd output)
        decryptBody s e outputFile hf secret
        hashIf s params.hashMode input
        eraseIf s params.erase params.force input)
      (fun r w' => (Trail (OutputPlace s.cwd params.force output w) w w' ∧ r ≠ .ok ()) ∨
        ∃ u, Trail (OutputPlace s.cwd params.force output w) w u ∧ Unsealed s input output params w u ∧ (r, w') = eraseIf s params.erase params.force input u) v := by
  rcases openOutput_cases (toPath s.cwd output) v with ⟨qo, j, w4, he4, ho⟩ | ⟨x, sc, hsc, he4⟩
  · have hT : OutputPlace s.cwd params.force output w qo := ⟨hm, (ht.resolves _ _).1 ho.resolve⟩
    have ht4 := ht.trans (Trail.opened ho hT)
    have hout4 : LeadsToFile w4 (toPath s.cwd output) qo j := ⟨(ho.resolves _ _).2 ho.resolve, ho.now⟩
    have htar : w.nextIno ≤ j ∨ OutputPlace s.cwd params.force output w qo ∧ w.look qo = some (.file j) := by
      rcases ho.was with ⟨_, h2, _⟩ | ⟨h1, _⟩
      · left; omega
      · exact .inr ⟨hT, by rw [← hlook]; exact h1⟩
    refine wp_bind (fun a w' h => ?_) (fun x w' h => by rw [he4] at h; cases h) (fun x w' h => by rw [he4] at h; cases h)
    rw [he4] at h; cases h
    rcases hin with ⟨p, rfl⟩ | ⟨h0, q, i, rfl, hq, hfd0, hlt0⟩
    · refine wp_bind (fun a w' h => ?_) (fun e w' h => ?_) (fun e w' h => ?_) <;>
        (unfold decryptBody at h; rw [Prog.bind_err (streamOf_dir p w4)] at h; cases h)
      exact .inl ⟨ht4, by simp⟩
    · have hfd4 : w4.fd h0 = { ino := i, pos := 0 } := by rw [ho.fds h0 (by omega)]; exact hfd0
      have hhd4 : HeaderOf s params.header w w4 hf := hhd.later (fun x hx => ho.fds x (by omega)) (by rw [ho.nextFd]; omega)
      have hb := decryptBody_wp s (toPath s.cwd input) (toPath s.cwd output) h0 v.nextFd hf secret w4
      have htr : ∀ w', Touches (decryptRequest hf h0 v.nextFd secret).readers [v.nextFd] w4 w' → w'.sched <:+ w4.sched → Trail (OutputPlace s.cwd params.force output w) w w' := by
        intro w' htt hs
        refine ht4.touch ?_ htt hs
        intro h hh
        rw [List.mem_singleton] at hh
        subst hh
        rw [ho.handle]
        rcases htar with h | h
        · exact .inl h
        · exact .inr ⟨qo, h.1, h.2⟩
      refine wp_bind (fun a w5 h => ?_) (fun e w5 h => ?_) (fun e w5 h => ?_)
      all_goals
        unfold wp at hb
        rw [h] at hb
        obtain ⟨hb1, hb2, hb3⟩ := hb
      · obtain ⟨w2, hx, hcore⟩ := hb3 rfl
        have ht5 := htr w5 hb1 hb2
        have hsealed : s.C.Lawful → (∀ k, Io.short k ∉ w.sched) → OutputApart s.cwd input output params.header w →
            Restores s.C s.cwd output params.header secret (w.file i) q i w w5 := by
          intro hC hns hsep
          have hns' : ∀ k, Io.short k ∉ w4.sched := fun k hk => hns k (ht4.sched.subset hk)
          obtain ⟨hqo, hji⟩ := apart_ne hsep.allocated ht4 hsep.inp hq hout4 htar
          have hwi : w4.file i = w.file i := output_kept hsep.allocated ht4 hsep.inp hq
          have hlo : LeadsToFile w5 (toPath s.cwd output) qo j :=
            ⟨by rw [World.resolve_congr hb1.dir]; exact hout4.resolve, by rw [World.look_congr hb1.dir]; exact hout4.look⟩
          have hfile : w5.file = w2.file := World.file_of_core hcore
          have hwrote : ∀ p, Wrote v.nextFd w4 w2 p → w5.file j = p := by
            intro p hw
            have := hw.content
            rw [ho.handle] at this
            simp only at this
            rw [hfile, this, ho.empty, writeAt_zero]
            simp
          refine ⟨qo, j, hlo, hqo, hji, ?_⟩
          have hemb : optStream hf = none → FileOf s.C secret (w.file i) (w5.file j) := by
            intro hn
            have ha : Asks (decryptRequest hf h0 v.nextFd secret) w4 secret (w.file i) := by
              refine ⟨hn, rfl, fun e => ?_, ?_, ?_⟩
              · have e : h0 = v.nextFd := e
                omega
              · simp only [decryptRequest]; rw [hfd4, ho.handle]; exact fun e => hji e.symm
              · simp only [decryptRequest, World.rest, World.data]; rw [hfd4]; simp only [List.drop_zero]; exact hwi
            obtain ⟨p, h1, h2⟩ := decrypt_ok_fileOf hC ha hns' hx
            rw [hwrote p h2]; exact h1
          rcases hhd4 with ⟨rfl, hn⟩ | ⟨hd, hhd', ⟨p, qd, rfl, hdir⟩ | ⟨h2, qh, k, rfl, hlh, hfd2, hlt2⟩⟩
          · rw [hn]; exact hemb rfl
          · rw [hhd']; exact .inr ⟨⟨qd, hdir⟩, hemb rfl⟩
          · rw [hhd'] at hsep ⊢
            have hlt2' : h2 < v.nextFd := by
              rcases hhd with ⟨e, _⟩ | ⟨hd', _, ⟨p, qd, e, _⟩ | ⟨h2', qh', k', e, _, _, hlt⟩⟩
              · cases e
              · cases e
              · simp only [Option.some.injEq, Storage.Entry.file.injEq] at e
                omega
            obtain ⟨_, hjk⟩ := apart_ne hsep.allocated ht4 (hsep.hdr hd rfl) hlh hout4 htar
            have hwk : w4.file k = w.file k := output_kept hsep.allocated ht4 (hsep.hdr hd rfl) hlh
            have ha : AsksDetached (decryptRequest (some (.file (toPath s.cwd hd) h2)) h0 v.nextFd secret) w4 secret (w.file k) (w.file i) h2 := by
              refine ⟨rfl, rfl, ⟨fun e => hne _ _ _ _ rfl rfl e.symm, fun e => ?_⟩, fun e => ?_, ?_, ?_, ?_, ?_⟩
              · have e : h2 = v.nextFd := e
                omega
              · have e : h0 = v.nextFd := e
                omega
              · simp only [decryptRequest]; rw [hfd4, ho.handle]; exact fun e => hji e.symm
              · simp only [decryptRequest]; rw [hfd4]
              · simp only [decryptRequest, World.data]; rw [hfd4]; exact hwi
              · simp only [World.rest, World.data]; rw [hfd2]; simp only [List.drop_zero]; exact hwk
            obtain ⟨p, h1, h2'⟩ := decrypt_ok_detached hC ha hns' hx
            refine .inl ⟨qh, k, hlh, ?_⟩
            rw [hwrote p h2']; exact h1
        refine wp_bind (fun a w6 h6 => ?_) (fun e w6 h6 => ?_) (fun e w6 h6 => ?_)
        all_goals
          have hl := (hashIf_looks s w5.nextFd params.hashMode input w5 (Nat.le_refl _)).1
          rw [h6] at hl
          have ht6 := ht5.trans (Trail.looked hl (Nat.le_refl _))
        · refine .inr ⟨w6, ht6, ⟨q, i, secret, hq, hsec, fun hC hns hsep => ?_⟩, rfl⟩
          obtain ⟨qo', j', h1, h2, h3, h4⟩ := hsealed hC hns hsep
          exact ⟨qo', j', (hl.leads _ _ _).2 h1, h2, h3, by rw [hl.file]; exact h4⟩
        · exact .inl ⟨ht6, by simp⟩
        · exact .inl ⟨ht6, by simp⟩
      · exact .inl ⟨htr w5 hb1 hb2, by simp⟩
      · exact .inl ⟨htr w5 hb1 hb2, by simp⟩
  · refine wp_bind (fun a w' h => by rw [he4] at h; cases h) (fun x w' h => ?_) (fun x w' h => by rw [he4] at h; cases h)
    rw [he4] at h; cases h
    exact .inl ⟨ht.trans (Trail.looked (Looked.of_sched v.nextFd v hsc) (Nat.le_refl _)), by simp⟩

/-- The header file, and what reading it consumes. -/
theorem readHeader_cases (s : Sys σ) (header : Option (List Char)) (w : World) :
    (∃ e w', readHeader s header w = (.ok e, w') ∧ HeaderOf s header w w' e ∧ Looked w.nextFd w w' ∧ (∀ p h, e = some (.file p h) → w.nextFd ≤ h) ∧
      w'.stdin = w.stdin ∧ w'.tty = w.tty ∧ w'.env = w.env ∧ w'.rng = w.rng) ∨
    (∃ e w', readHeader s header w = (.err e, w') ∧ Looked w.nextFd w w') := by
  cases header with
  | none => exact .inl ⟨none, w, rfl, .inl ⟨rfl, rfl⟩, .refl _ _, (fun _ _ h => by cases h), rfl, rfl, rfl, rfl⟩
  | some hd =>
    have hun : readHeader s (some hd) = (do let e ← readInput (toPath s.cwd hd); pure (some e)) := rfl
    have hl := (readInput_looks w.nextFd (toPath s.cwd hd) w (Nat.le_refl _)).1
    rcases readInput_cases (toPath s.cwd hd) w with ⟨q, i, sc, hsc, hq, he⟩ | ⟨q, hq, he⟩ | ⟨e, sc, hsc, he, _⟩
    all_goals rw [he] at hl
    · refine .inl ⟨some (.file (toPath s.cwd hd) w.nextFd), _, by rw [hun, Prog.bind_ok he]; rfl,
        .inr ⟨hd, rfl, .inr ⟨w.nextFd, q, i, rfl, hq, opened_fd { w with sched := sc } i, Nat.lt_succ_self _⟩⟩, hl, ?_, rfl, rfl, rfl, rfl⟩
      intro p h e
      simp only [Option.some.injEq, Storage.Entry.file.injEq] at e
      omega
    · exact .inl ⟨some (.dir (toPath s.cwd hd)), _, by rw [hun, Prog.bind_ok he]; rfl, .inr ⟨hd, rfl, .inl ⟨_, q, rfl, hq⟩⟩, hl, (fun _ _ h => by cases h), rfl, rfl, rfl, rfl⟩
    · exact .inr ⟨e, _, by rw [hun, Prog.bind_err he], hl⟩

theorem decryptMode_wp (s : Sys σ) (input output : List Char) (params : CryptoParams) (w : World) :
    wp (decryptMode s input output params)
      (fun r w' => (Trail (OutputPlace s.cwd params.force output w) w w' ∧ r ≠ .ok ()) ∨
        ∃ u, Trail (OutputPlace s.cwd params.force output w) w u ∧ Unsealed s input output params w u ∧ (r, w') = eraseIf s params.erase params.force input u) w := by
  unfold decryptMode
  split
  · exact .inl ⟨.refl w, by simp [Prog.throw]⟩
  · have hc := consent_wp s.cwd output params.force w
    have ha := consent_answered s.cwd output params.force w
    unfold wp at hc
    refine wp_bind (fun a w1 h => ?_) (fun e w1 h => ?_) (fun e w1 h => ?_)
    all_goals
      rw [h] at hc ha
      obtain ⟨hl1, hc1⟩ := hc
    · have hm : MayWrite params.force w (toPath s.cwd output) := mayWrite_of_consent (F := fun _ => False) (.refl w) (hc1 rfl)
      have ht1 : Trail (OutputPlace s.cwd params.force output w) w w1 := Trail.looked hl1 (Nat.le_refl _)
      have hr2 := readInput_cases (toPath s.cwd input) w1
      have hl2 := (readInput_looks w1.nextFd (toPath s.cwd input) w1 (Nat.le_refl _)).1
      refine wp_bind (fun e w2 h2 => ?_) (fun e w2 h2 => ?_) (fun e w2 h2 => ?_)
      all_goals rw [h2] at hl2 hr2
      · have hin : InputOf s input w w2 e := by
          rcases hr2 with ⟨q, i, sc, _, hq, he⟩ | ⟨q, _, he⟩ | ⟨_, _, _, he, _⟩
          · cases he
            exact .inr ⟨w1.nextFd, q, i, rfl, (hl1.leads _ _ _).1 hq, opened_fd { w1 with sched := sc } i, Nat.lt_succ_self _⟩
          · cases he; exact .inl ⟨_, rfl⟩
          · cases he
        have hsame : w2.stdin = w1.stdin ∧ w2.tty = w1.tty ∧ w2.env = w1.env ∧ w2.rng = w1.rng := by
          rcases hr2 with ⟨q, i, sc, _, hq, he⟩ | ⟨q, _, he⟩ | ⟨_, _, _, he, _⟩ <;> cases he <;> exact ⟨rfl, rfl, rfl, rfl⟩
        have ht2 := ht1.trans (Trail.looked hl2 (Nat.le_refl _))
        have hr3 := readHeader_cases s params.header w2
        refine wp_bind (fun hf w3 h3 => ?_) (fun e w3 h3 => ?_) (fun e w3 h3 => ?_)
        all_goals rw [h3] at hr3
        · rcases hr3 with ⟨hf', w3', hx, hhd, hl3, hge, hs1, hs2, hs3, hs4⟩ | ⟨_, _, hx, _⟩
          · cases hx
            have ht3 := ht2.trans (Trail.looked hl3 (Nat.le_refl _))
            have hl4 := (getSecret_looks w3.nextFd s.words s.cwd params.key .direct w3 (Nat.le_refl _)).1
            refine wp_bind (fun secret w4 h4 => ?_) (fun e w4 h4 => ?_) (fun e w4 h4 => ?_)
            all_goals rw [h4] at hl4
            all_goals have ht4 := ht3.trans (Trail.looked hl4 (Nat.le_refl _))
            · obtain ⟨hne, hsup⟩ := getSecret_ok h4
              have hhd' : HeaderOf s params.header w w3 hf := by
                rcases hhd with h | ⟨hd, e, ⟨p, q, e2, hq⟩ | ⟨g2, qh, k, e2, hlh, g3, g4⟩⟩
                · exact .inl h
                · refine .inr ⟨hd, e, .inl ⟨p, q, e2, ?_⟩⟩
                  have hlk := hl1.trans (hl2.mono hl1.nextFd)
                  exact ⟨by rw [← World.resolve_congr hlk.dir]; exact hq.resolve, by rw [← World.look_congr hlk.dir]; exact hq.look⟩
                · have hlk := hl1.trans (hl2.mono hl1.nextFd)
                  exact .inr ⟨hd, e, .inr ⟨g2, qh, k, e2, (hlk.leads _ _ _).1 hlh, g3, g4⟩⟩
              refine decrypt_open_wp s input output params ht4 hm (by rw [hl4.nextIno, hl3.nextIno, hl2.nextIno, hl1.nextIno]) (fun x => by rw [hl4.look, hl3.look, hl2.look, hl1.look])
                ((hin.later hl3.fds hl3.nextFd).later hl4.fds hl4.nextFd) (hhd'.later hl4.fds hl4.nextFd) ?_ ⟨hne, w1, ha, ?_⟩
              · intro p h p' h' e1 e2
                have := hge p' h' e2
                rcases hin with ⟨_, e3⟩ | ⟨h0, q, i, e3, _, _, hlt⟩
                · rw [e3] at e1; cases e1
                · rw [e3] at e1
                  simp only [Storage.Entry.file.injEq] at e1
                  omega
              · exact Supplies.congr (hl2.file.symm.trans hl3.file.symm) (hl2.dir.symm.trans hl3.dir.symm) (hsame.1.symm.trans hs1.symm) (hsame.2.1.symm.trans hs2.symm)
                  (hsame.2.2.1.symm.trans hs3.symm) (hsame.2.2.2.symm.trans hs4.symm) hsup
            · exact .inl ⟨ht4, by simp⟩
            · exact .inl ⟨ht4, by simp⟩
          · cases hx
        · rcases hr3 with ⟨_, _, hx, _⟩ | ⟨_, _, hx, hl3⟩
          · cases hx
          · cases hx
            exact .inl ⟨ht2.trans (Trail.looked hl3 (Nat.le_refl _)), by simp⟩
        · rcases hr3 with ⟨_, _, hx, _⟩ | ⟨_, _, hx, hl3⟩ <;> cases hx
      · exact .inl ⟨ht1.trans (Trail.looked hl2 (Nat.le_refl _)), by simp⟩
      · exact .inl ⟨ht1.trans (Trail.looked hl2 (Nat.le_refl _)), by simp⟩
    · exact .inl ⟨Trail.looked hl1 (Nat.le_refl _), by simp⟩
    · exact .inl ⟨Trail.looked hl1 (Nat.le_refl _), by simp⟩

theorem Restores.erased {C : Crypto} {cwd : Path} {output : List Char} {header : Option (List Char)} {secret p : Bytes} {q : Path} {i : Nat} {w u w' : World}
    {mode : EraseMode} {r : Res Error Unit} (hp : Restores C cwd output header secret p q i w u) (h : Erased mode q i u r w') :
    Restores C cwd output header secret p q i w w' := by
  obtain ⟨qo, j, h1, h2, h3, h4⟩ := hp
  exact ⟨qo, j, h.leads h1 h2, h2, h3, by rw [h.others.1 j h3]; exact h4⟩

theorem decryptMode_cases (s : Sys σ) (input output : List Char) (params : CryptoParams) (w : World) {r : Res Error Unit} {w' : World}
    (hrun : decryptMode s input output params w = (r, w')) :
    (Trail (OutputPlace s.cwd params.force output w) w w' ∧ r ≠ .ok ()) ∨
    ∃ u q i secret, Trail (OutputPlace s.cwd params.force output w) w u ∧ LeadsToFile w (toPath s.cwd input) q i ∧ SuppliedTo s .direct params.key w secret ∧
      (s.C.Lawful → (∀ k, Io.short k ∉ w.sched) → OutputApart s.cwd input output params.header w →
        Restores s.C s.cwd output params.header secret (w.file i) q i w u) ∧ Erased params.erase q i u r w' := by
  have h := decryptMode_wp s input output params w
  unfold wp at h
  rw [hrun] at h
  rcases h with h | ⟨u, ht, ⟨q, i, secret, h1, h2, h3⟩, he⟩
  · exact .inl h
  · refine .inr ⟨u, q, i, secret, ht, h1, h2, h3, ?_⟩
    have := eraseIf_wp s params.erase params.force input (ht.leads h1)
    unfold wp at this
    rw [← he] at this
    exact this

end Volaris.Cli
