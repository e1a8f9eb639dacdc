import Verif.Proofs.PackSession
import Verif.Props.TreeCmd
import Verif.Props.Session
/-!
# C94: packing directories with one line and getting them back with another
-/
namespace Volaris.Props
open Volaris.Spec Volaris.Cli Volaris.Cli.Argv Volaris.Example
variable {σ : Type}

/-- **C94.** A `pack` line whose key is in a key file or in the environment, and that is not to erase or need not ask, succeeds and leaves an encrypted file.  Whenever, wherever and under whatever name this file is then given to a `decrypt` line
with the same key, that line succeeds too, and leaves an archive that any zip program can read: it holds every directory and every file below the inputs, as they were when they were packed, and nothing else.  The first line touches nothing but
its output and, if it is to erase, the inputs; the second one nothing but its two files. -/
theorem C94_pack_decrypt (s : Sys σ) (hC : s.C.Lawful) (hz : s.z.Lawful) {before after : List (String × List Char)} {wb wa : List (List Char)} (hb : OptionWords (optionsOf "pack") before wb) (ha : OptionWords (optionsOf "pack") after wa)
    {inputs : List (List Char)} {output : List Char} {argv : List (List Char)} (hne : inputs ≠ []) (hpi : ∀ f ∈ inputs, NotOption f) (hpo : NotOption output) (hc : Consistent (before ++ after))
    (hi : Invokes "pack" (wb ++ inputs ++ output :: wa) argv) (hh : valueOf (before ++ after) "header" = none) (he : valueOf (before ++ after) "erase" = none ∨ (valueOf (before ++ after) "force").isSome)
    {secret : Bytes} {i : Nat} {w : World} (hd : PackDesk s inputs output w) (hf : Fits s inputs w) (hk : KeyFrom s.cwd (before ++ after) i secret w)
    (hp : PrimitivesWork s.C (algorithmOf (before ++ after)) (if (valueOf (before ++ after) "argon").isSome then .argon2id 3 else .blake3Balloon 5) secret) :
    ∃ run w1 j, Cli.main s false argv = some run ∧ run w = (.ok [], w1) ∧ w1.look (s.cwd ++ [output]) = some (.file j) ∧
      (valueOf (before ++ after) "erase" = none → (∀ x, x ≠ s.cwd ++ [output] → w1.look x = w.look x) ∧ ∀ k, k < w.nextIno → w1.file k = w.file k) ∧
      ((valueOf (before ++ after) "erase").isSome → (∀ x, InSource s.cwd inputs w x → w1.look x = none ∧ ∀ k, w.look x = some (.file k) → w1.file k = []) ∧
        (∀ x, x ≠ s.cwd ++ [output] → ¬ InSource s.cwd inputs w x → w1.look x = w.look x) ∧
        ∀ k, k < w.nextIno → (∀ x, InSource s.cwd inputs w x → w.look x ≠ some (.file k)) → w1.file k = w.file k) ∧
      ∀ (s' : Sys σ) (opts : List (String × List Char)) (input back : List Char) (words' argv' : List (List Char)) (i' : Nat) (v : World), s'.C = s.C → Words (optionsOf "decrypt") opts [input, back] words' → Consistent opts →
        Invokes "decrypt" words' argv' → valueOf opts "header" = none → DecryptDesk s' input back i' (w1.file j) v → KeyFrom s'.cwd opts i' secret v →
        ∃ run' v', Cli.main s' false argv' = some run' ∧ run' v = (.ok [], v') ∧ (∃ k, v'.look (s'.cwd ++ [back]) = some (.file k) ∧ HoldsTree s.z s.cwd inputs w (v'.file k)) ∧ v'.look (s'.cwd ++ [input]) = none ∧
          (∀ x, x ≠ s'.cwd ++ [input] → x ≠ s'.cwd ++ [back] → v'.look x = v.look x) ∧ ∀ k, k < v.nextIno → k ≠ i' → v'.file k = v.file k := by
  obtain ⟨run, m1, r1⟩ := C77_pack s hb ha hne hpi hpo hc hi
  obtain ⟨params, sel, key, -, e1⟩ := r1 w
  have sup : Supplies s.words s.cwd .validate params.key w secret := supplies_from hd.directory hk ⟨fun path hv => by
      unfold KeyChoice at key; rw [hv] at key; exact key, fun hv he => by
      unfold KeyChoice at key; rw [hv] at key; simp only [he, if_true] at key; exact key⟩ _
  have hhd : params.header = none := by rw [sel.header]; exact hh
  have hkd : keyDraws params.key = 0 := by
    have hk2 := hk.2
    unfold KeyChoice at key
    cases hv : valueOf (before ++ after) "keyfile" with
    | some path => rw [hv] at key; rw [key]; rfl
    | none =>
      rw [hv] at key hk2
      simp only [show w.env = some secret from hk2, Option.isSome_some, if_true] at key
      rw [key]; rfl
  have hready := packReady (params := params) (a := algorithmOf (before ++ after)) hd hf hhd hk.1 sup (by rw [sel.argon]; exact hp) hkd
  obtain ⟨u, c, v0, fs, hrun, ⟨q, j, hq, hcont⟩, hlist, hpk, hst, hdec, harch, hus, hother⟩ := packMode_ran s hC inputs output ⟨false⟩ params _ secret rfl hready
  have hout : w.resolve (toPath s.cwd output) = .ok (s.cwd ++ [output]) := resolve_plain hd.name hd.directory
  have hother := hother _ hout
  have hud : u.look s.cwd = some .dir := by rw [hother _ (cwd_ne _ _)]; exact hd.directory
  obtain rfl : q = s.cwd ++ [output] := by
    have := hq.resolve
    rw [resolve_plain hd.name hud] at this
    cases this
    rfl
  have hns : ∀ k, Io.short k ∉ w.sched := fun k h => by rw [hd.faultless] at h; cases h
  have htar : ∀ x, Targets s.cwd output params w x → x = s.cwd ++ [output] := by
    intro x hx
    rcases hx with ⟨_, hx⟩ | ⟨x', hx, _⟩
    · rw [hout] at hx; cases hx; rfl
    · rw [hhd] at hx; cases hx
  have hplain : ∀ f ∈ inputs, ∃ ns, Plainly s.cwd f ns := fun f hf => (hd.sources f hf).1
  have hnotin : ¬ InSource s.cwd inputs w (s.cwd ++ [output]) := not_inSource hplain (by rw [hd.target]; simp)
  -- the first line
  have key1 : ∃ w1, packMode s inputs output ⟨(valueOf (before ++ after) "erase").isSome⟩ params (algorithmOf (before ++ after)) w = (.ok (), w1) ∧ w1.look (s.cwd ++ [output]) = some (.file j) ∧ w1.file j = u.file j ∧
      ∀ x, x ≠ s.cwd ++ [output] → ¬ InSource s.cwd inputs w x ∨ valueOf (before ++ after) "erase" = none → w1.look x = w.look x := by
    cases hv : valueOf (before ++ after) "erase" with
    | none => exact ⟨u, hrun, hq.look, rfl, fun x hx _ => hother x hx⟩
    | some val =>
      rw [hv] at he
      have hforce : params.force = .forced := by
        rw [sel.force]
        rcases he with he | he
        · cases he
        · simp only [he, if_true]
      have hlead : ∀ f ∈ inputs, ∃ T, LeadsToDir u (toPath s.cwd f) T := by
        intro f hf
        obtain ⟨⟨ns, hns⟩, T, hT⟩ := hd.sources f hf
        have hTe := hns.leads hT
        subst hTe
        refine ⟨s.cwd ++ ns, ?_⟩
        have hr := hT.resolve
        unfold World.resolve at hr
        rw [hns.names, hns.start] at hr
        have hdirs : ∀ x, w.look x = some .dir → u.look x = some .dir := by
          intro x hx
          rw [hother x (by rintro rfl; rw [hd.target] at hx; cases hx)]
          exact hx
        refine ⟨?_, hdirs _ hT.look⟩
        unfold World.resolve
        rw [hns.names, hns.start]
        exact World.walk_names u ns s.cwd fun k hk => hdirs _ (walk_names_dirs ns s.cwd _ hr k hk)
      have hut : TreeOk u := by
        have := (packMode_crashes s inputs output ⟨false⟩ params (algorithmOf (before ++ after)) w).tree hd.tree
        rw [hrun] at this
        exact this
      have hok := eraseInputs_forced s inputs u hus hut (fun f hf => ⟨hplain f hf, hlead f hf⟩) hd.disjoint
      obtain ⟨r, w1, hr, her, -, -⟩ := eraseInputs_cases s .forced inputs u hut (fun f hf q i h => by
        obtain ⟨T, hT⟩ := hlead f hf
        have := hT.resolve
        rw [h.resolve] at this
        cases this
        have := hT.look
        rw [h.look] at this
        cases this)
      rw [hr] at hok
      cases hok
      have hin : ∀ x, InSource s.cwd inputs u x → InSource s.cwd inputs w x := by
        rintro x ⟨f, hf, T, hT, hx⟩
        obtain ⟨⟨ns, hns⟩, T', hT'⟩ := hd.sources f hf
        exact ⟨f, hf, T', hT', by rw [hns.leads hT', ← hns.leads hT]; exact hx⟩
      refine ⟨w1, ?_, ?_, her.files j ?_, fun x hx hor => ?_⟩
      · show packMode s inputs output ⟨true⟩ params _ w = _
        rw [packMode_split, Prog.bind_ok hrun, hforce]
        exact hr
      · rw [her.outside _ fun h => hnotin (hin _ h)]; exact hq.look
      · intro x hx hl
        have hw : w.look x = some (.file j) := by
          rw [← hother x (by rintro rfl; exact hnotin (hin _ hx))]; exact hl
        have hj := hd.allocated x j hw
        have hfr := (C67_frame s inputs output ⟨false⟩ params _ w u _ hd.tree hrun).1 (s.cwd ++ [output])
        rcases hfr with g | ⟨_, _, j', g1, g2⟩ | ⟨_, _, g, _⟩
        · rw [hq.look, hd.target] at g; cases g
        · rw [hq.look] at g2; cases g2; omega
        · cases g
      · rcases hor with hor | hor
        · rw [her.outside _ fun h => hor (hin _ h)]; exact hother x hx
        · cases hor
  obtain ⟨w1, hrun1, hl1, hf1, ho1⟩ := key1
  have hfiles : ∀ k, k < w.nextIno → (valueOf (before ++ after) "erase" = none ∨ ∀ x, InSource s.cwd inputs w x → w.look x ≠ some (.file k)) → w1.file k = w.file k := by
    intro k hk hor
    rcases (C67_frame s inputs output _ params _ w w1 _ hd.tree hrun1).2 k hk with g | ⟨q, g1, g2⟩ | ⟨⟨q, g1, g2⟩, g3, _⟩
    · exact g
    · rw [htar q g1, hd.target] at g2; cases g2
    · rcases hor with hor | hor
      · simp [hor] at g3
      · exact absurd g2 (hor q g1)
  refine ⟨run, w1, j, m1, by rw [e1]; exact Prog.bind_ok hrun1, hl1, fun hv => ⟨fun x hx => ho1 x hx (.inr hv), fun k hk => hfiles k hk (.inl hv)⟩, fun hv => ⟨fun x hx => ?_, fun x hx hn => ho1 x hx (.inl hn), fun k hk hn => hfiles k hk (.inr hn)⟩, ?_⟩
  · obtain ⟨-, -, h3⟩ := C67_success s hC inputs output _ params _ w w1 hns hd.tree hready.outside hrun1
    refine h3 hv x hx ?_
    rintro rfl
    obtain ⟨f, hf, T, hT, hp⟩ := hx
    obtain ⟨ns, hns⟩ := hplain f hf
    have := hns.leads hT
    rw [List.prefix_nil.1 hp] at this
    exact hns.some (List.append_eq_nil_iff.1 this.symm).2
  -- the second line
  intro s' opts input back words' argv' i' v hs' hw' hc' hi' hh' hdd hk'
  obtain ⟨run2, m2, r2⟩ := C77_decrypt s' hw' hc' hi'
  obtain ⟨params2, n2, sel2, key2, er2, _, e2⟩ := r2 v
  have sup2 : Supplies s'.words s'.cwd .direct params2.key v secret := supplies_from hdd.directory hk' ⟨fun path hv => by
      unfold OpenKeyChoice at key2; rw [hv] at key2; exact key2, fun hv he => by
      unfold OpenKeyChoice at key2; rw [hv] at key2; simp only [he, if_true] at key2; exact key2⟩ _
  obtain ⟨v', f2, mv2⟩ := decrypt_moves s' (p := s.z.encode (fs.map (Pack.stored v0))) hdd.faultless hdd.allocated hdd.directory hdd.names.1 hdd.names.2 hdd.source hdd.target hk'.1 sup2 (by rw [sel2.header]; exact hh') ⟨n2, er2⟩ (by
    rw [hdd.content, hs', hf1, hcont]
    exact hdec)
  refine ⟨run2, v', m2, by rw [e2]; exact Prog.bind_ok f2, ?_, mv2.gone, mv2.others, mv2.files⟩
  obtain ⟨k, h1, -, h2⟩ := mv2.there
  refine ⟨k, h1, fs.map (Pack.stored v0), harch, stored_nodup hpk v0, ?_⟩
  rw [h2]
  exact hz.decode_encode _ (stored_nodup hpk v0) fun e he => by
    obtain ⟨f, hf, rfl⟩ := List.mem_map.1 he
    exact hst f hf

/-- Everything is in place on the small disk to pack `a` to `o`. -/
theorem exPackDesk : PackDesk exPackSys [['a']] ['o'] (exWorld [] []) where
  faultless := rfl
  tree := exWorld_tree _ _
  allocated := (exSeparate [] []).allocated
  directory := rfl
  name := by unfold Plain; decide
  sources := exPackReady.sources
  disjoint := exPackReady.disjoint
  below := exPackReady.below
  target := by decide +kernel
  temp := ⟨exTempReady [] _ (by simp), fun h => exTempApart _ (by simp) _ (by rfl) h⟩

/-- Another disk, with nothing on it but a file `p` with the content `c`. -/
def exSecondDisk (c : Bytes) : World := { exWorld [] [] with dir := [([['p']], .file 5)], file := fun _ => c }

theorem exDecryptDesk (c : Bytes) : DecryptDesk exPackSys ['p'] ['q'] 5 c (exSecondDisk c) where
  faultless := rfl
  allocated := by
    intro q i h
    by_cases hq : q = []
    · subst hq; cases h
    · have := World.mem_of_look hq h
      have hd : (exSecondDisk c).dir = [([['p']], .file 5)] := rfl
      rw [hd, List.mem_singleton] at this
      cases this
      show 5 < 1000
      decide
  directory := rfl
  names := by unfold Plain; decide
  source := rfl
  content := rfl
  target := rfl

/-- `pack --erase=1 --force=1 --argon=1 a o`, and then, on another machine to which the file has been brought under the name `p`, `decrypt p q`: the directory is gone from the first machine, and the archive on the second one has the file `a/x`. -/
example : ∃ run w1 j, Cli.main exPackSys false ["pack".toList, "--erase=1".toList, "--force=1".toList, "--argon=1".toList, "a".toList, "o".toList] = some run ∧ run (exWorld [] []) = (.ok [], w1) ∧ w1.look [['o']] = some (.file j) ∧
    w1.look [['a'], ['x']] = none ∧ w1.look [['z']] = some (.file 2) ∧
    ∃ run' v', Cli.main exPackSys false ["decrypt".toList, "p".toList, "q".toList] = some run' ∧ run' (exSecondDisk (w1.file j)) = (.ok [], v') ∧
      ∃ k l, v'.look [['q']] = some (.file k) ∧ toyZip.decode (v'.file k) = some l ∧ ∃ e ∈ l, e.name = "a/x".toList ∧ e.content = [1, 2, 3] := by
  obtain ⟨run, w1, j, h1, h2, h3, -, h4, h5⟩ := C94_pack_decrypt exPackSys (Example.toy_lawful _ (by decide)) toyZip_lawful (before := [("erase", ['1']), ("force", ['1']), ("argon", ['1'])]) (after := [])
    (wb := ["--erase=1".toList, "--force=1".toList, "--argon=1".toList]) (wa := []) (inputs := [['a']]) (output := ['o']) (secret := [112, 119]) (i := 7) (w := exWorld [] [])
    ⟨.opt (o := ⟨"erase", none, false⟩) (by decide) .attached (.opt (o := ⟨"force", some 'f', false⟩) (by decide) .attached (.opt (o := ⟨"argon", none, false⟩) (by decide) .attached .nil)), by decide⟩ ⟨.nil, by simp⟩ (by simp)
    (by intro f hf; rw [List.mem_singleton.1 hf]; exact .inr (by decide)) (.inr (by decide)) ⟨by decide, .inl rfl⟩ .name rfl (.inr rfl) exPackDesk ⟨exPackReady.storable, exPackReady.size⟩ ⟨by decide, rfl⟩ (toy_works _ _ _ (by decide))
  obtain ⟨h6, h7, -⟩ := h4 rfl
  have hlead : LeadsToDir (exWorld [] []) (toPath exPackSys.cwd ['a']) [['a']] := ⟨rfl, rfl⟩
  have hz : ¬ InSource exPackSys.cwd [['a']] (exWorld [] []) [['z']] := by
    rintro ⟨f, hf, T, hT, hp⟩
    rw [List.mem_singleton.1 hf] at hT
    have := hT.resolve
    rw [hlead.resolve] at this
    cases this
    exact absurd hp (by decide)
  obtain ⟨run', v', g1, g2, ⟨k, g3, l, g4, -, g5⟩, -⟩ := h5 exPackSys [] ['p'] ['q'] ["p".toList, "q".toList] ["decrypt".toList, "p".toList, "q".toList] 5 (exSecondDisk (w1.file j)) rfl
    (.file (.inr (by decide)) (.file (.inr (by decide)) .nil)) ⟨by decide, .inl rfl⟩ .name rfl (exDecryptDesk _) ⟨by decide, rfl⟩
  refine ⟨run, w1, j, h1, h2, h3, (h6 _ ⟨['a'], by simp, [['a']], hlead, by decide⟩).1, (h7 _ (by decide) hz).trans (by decide +kernel), run', v', g1, g2, k, _, g3, g5, ?_⟩
  exact ⟨_, List.mem_map.2 ⟨_, g4.files ['a'] (by simp) [['a']] hlead [['x']] 0 (by decide +kernel), rfl⟩, by decide +kernel, by decide +kernel⟩

end Volaris.Props
