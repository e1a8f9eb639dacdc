import Verif.Proofs.ConcLookMachine
import Verif.Props.ConcKeys
import Verif.Props.HeaderOps
/-!
# Reading a file while its keys are changed
-/
namespace Volaris.Props
open Volaris.Spec

/-! ### C99 -/

/-- **C99 (one moment).** Any number of key operations on one file and any number of calls that decrypt it or dump its header, their system calls in any order, with faults: a reading call that has returned has returned what it returns, and written what it
writes, when it is alone and the file is all the time as it was right before one of the call's own steps.  The file as it was then is that of some of the key operations that had returned `Ok` by then, carried out one after the other. -/
theorem C99_moment (C : Crypto) (hC : C.Lawful) (cs : List KeyCall) (ls : List LookCall) (d : Disk) (i : Nat) (hd : Header) (ks : List Keyslot) (aad mk : Bytes) (U l : List Bytes)
    (hfit : ∀ c ∈ cs, c.Fits C hd.headerType.algorithm mk U i) (hf : KeyFile (d.file i) hd ks aad) (hsl : SlotsFor C hd.headerType.algorithm mk U l ks) (hl : ∀ pw ∈ l, pw ∈ U)
    (hls : ∀ c ∈ ls, c.Fits i) (hap : ls.Pairwise fun a b => a.output ≠ b.output) (order : List Nat) (a : Nat) (c : LookCall) (hc : ls[a]? = some c) (r : Res Cli.Error Unit)
    (hr : KeyReturned ((startBoth C cs ls d).run order) (cs.length + a) r) :
    ∃ xs ys js b v, order = xs ++ (cs.length + a) :: ys ∧ b = ((startBoth C cs ls d).run xs).disk.file i ∧
      Selection cs l ((startBoth C cs ls d).run xs) js ∧ KeysAre C hd.headerType hd.nonce aad mk ((d.file i).drop 416) U (onListAll (chosen cs js) l).2 b ∧
      c.what.prog C c.reader c.writer (c.self.on (withFile d i b)) = (r, v) ∧ v.file c.output = ((startBoth C cs ls d).run order).disk.file c.output := by
  let x : ConcKeys.Ctx := ⟨C, hd.headerType, hd.nonce, aad, mk, (d.file i).drop 416, U, i, 0, .verify [], Example.world fun _ => []⟩
  have hh : x.Holds l (d.file i) := ConcKeys.holds_iff.2 ⟨hl, rfl, hd, ks, hf, rfl, rfl, hsl⟩
  obtain ⟨xs, ys, v, h1, h2, h3⟩ := ConcLook.result (x := x) hC hfit hls hap hh order hc hr
  obtain ⟨js, h4, h5⟩ := ConcLook.holds_run (x := x) hC hfit hls hap hh xs
  exact ⟨xs, ys, js, _, v, h1, rfl, h4, ConcKeys.holds_iff.1 h5, h2, h3⟩

/-- **C99 (the keys).** The reading calls are no hindrance: the file is at every moment that of some of the key operations that have returned `Ok`, as without them; and apart from it only the outputs of the reading calls change. -/
theorem C99_keys (C : Crypto) (hC : C.Lawful) (cs : List KeyCall) (ls : List LookCall) (d : Disk) (i : Nat) (hd : Header) (ks : List Keyslot) (aad mk p : Bytes) (U l : List Bytes)
    (hfit : ∀ c ∈ cs, c.Fits C hd.headerType.algorithm mk U i) (hf : KeyFile (d.file i) hd ks aad) (hsl : SlotsFor C hd.headerType.algorithm mk U l ks) (hl : ∀ pw ∈ l, pw ∈ U)
    (hls : ∀ c ∈ ls, c.Fits i) (hap : ls.Pairwise fun a b => a.output ≠ b.output) (hb : BodyOf C hd mk aad p ((d.file i).drop 416)) (order : List Nat) :
    let m := (startBoth C cs ls d).run order
    (∃ js, Selection cs l m js ∧ OpenedBy C U (onListAll (chosen cs js) l).2 (m.disk.file i) p) ∧
    (m.disk.file i).drop 416 = (d.file i).drop 416 ∧ (∀ k, k ≠ i → (∀ c ∈ ls, k ≠ c.output) → m.disk.file k = d.file k) ∧ m.disk.dir = d.dir ∧ m.disk.nextIno = d.nextIno := by
  let x : ConcKeys.Ctx := ⟨C, hd.headerType, hd.nonce, aad, mk, (d.file i).drop 416, U, i, 0, .verify [], Example.world fun _ => []⟩
  have hh : x.Holds l (d.file i) := ConcKeys.holds_iff.2 ⟨hl, rfl, hd, ks, hf, rfl, rfl, hsl⟩
  obtain ⟨phs, hi⟩ := ConcLook.minv_run (x := x) (T := fun _ _ => True) (m0 := startBoth C cs ls d) (whole := order) (fun _ _ _ _ => trivial) order [] rfl (ConcLook.minv_start (x := x) hC hfit hls hap hh)
  obtain ⟨d', hk, h1, h2, h3⟩ := hi.keys
  obtain ⟨js, l', hch, hh'⟩ := hk.now
  refine ⟨⟨js, ConcLook.selection_of hk hch, ?_⟩, hh'.body, fun k h h' => (hk.others k h).trans (h3 k h'), hk.dir.trans h1, hk.nextIno.trans h2⟩
  rw [hch.list]
  exact hh'.opened hC fun hd' e1 e2 => (bodyOf_congr e1 e2).2 hb

/-- At its moment, a decrypting call is one on a file that the list of passwords decides about. -/
theorem look_decides {C : Crypto} (hC : C.Lawful) {cs : List KeyCall} {ls : List LookCall} {d : Disk} {i : Nat} {hd : Header} {ks : List Keyslot} {aad mk p : Bytes} {U l : List Bytes}
    (hfit : ∀ c ∈ cs, c.Fits C hd.headerType.algorithm mk U i) (hf : KeyFile (d.file i) hd ks aad) (hsl : SlotsFor C hd.headerType.algorithm mk U l ks) (hl : ∀ pw ∈ l, pw ∈ U)
    (hls : ∀ c ∈ ls, c.Fits i) (hap : ls.Pairwise fun a b => a.output ≠ b.output) (hb : BodyOf C hd mk aad p ((d.file i).drop 416)) (order : List Nat) {a : Nat} {c : LookCall} (hc : ls[a]? = some c) {pw : Bytes}
    (hw : c.what = .decrypt pw) {r : Res Cli.Error Unit} (hr : KeyReturned ((startBoth C cs ls d).run order) (cs.length + a) r) :
    ∃ (js : List Nat) (b : Bytes) (req : Decrypt.Request) (w v : World) (r' : Res Decrypt.Error Unit), OpenedBy C U (onListAll (chosen cs js) l).2 b p ∧ Asks req w pw b ∧ w.sched = c.self.sched ∧ Decrypt.execute C req w = (r', v) ∧
      r = r'.mapErr .decrypt ∧ v.file c.output = ((startBoth C cs ls d).run order).disk.file c.output ∧ w.file c.output = d.file c.output ∧ w.fd req.writer = c.self.fd c.writer := by
  obtain ⟨xs, ys, js, b, v, -, -, h1, h2, h3, h4⟩ := C99_moment C hC cs ls d i hd ks aad mk U l hfit hf hsl hl hls hap order a c hc r hr
  have h := hls c (List.mem_of_getElem? hc)
  let x : ConcKeys.Ctx := ⟨C, hd.headerType, hd.nonce, aad, mk, (d.file i).drop 416, U, i, 0, .verify [], Example.world fun _ => []⟩
  have hh : x.Holds _ b := ConcKeys.holds_iff.2 h2
  let req : Decrypt.Request := { headerReader := none, reader := c.reader, writer := c.writer, rawKey := pw }
  let w : World := c.self.on (withFile d i b)
  rw [hw] at h3
  have h3 : ((Decrypt.execute C req).mapErr Cli.Error.decrypt) w = (r, v) := h3
  refine ⟨js, b, req, w, v, (Decrypt.execute C req w).1, hh.opened hC fun hd' e1 e2 => (bodyOf_congr e1 e2).2 hb, ⟨rfl, rfl, h.handles, ?_, ?_⟩, rfl, ?_, ?_, h4, ?_, rfl⟩
  · show (c.self.fd c.reader).ino ≠ c.output
    rw [h.fd]; exact h.files.symm
  · show (w.file (c.self.fd c.reader).ino).drop (c.self.fd c.reader).pos = b
    rw [h.fd]
    show (if i = i then b else _).drop 0 = b
    rw [if_pos rfl, List.drop_zero]
  · cases e : Decrypt.execute C req w with
    | mk r' v' =>
      simp only [Prog.mapErr, e] at h3
      cases r' <;> cases h3 <;> rfl
  · cases e : Decrypt.execute C req w with
    | mk r' v' =>
      simp only [Prog.mapErr, e] at h3
      cases r' <;> cases h3 <;> rfl
  · exact if_neg h.files

/-- **C99 (a password that stays).** While other passwords are added, changed and deleted, a password that is on the list and that no operation takes away decrypts the file at any time: without faults the call succeeds with the plaintext. -/
theorem C99_stays (C : Crypto) (hC : C.Lawful) (cs : List KeyCall) (ls : List LookCall) (d : Disk) (i : Nat) (hd : Header) (ks : List Keyslot) (aad mk p : Bytes) (U l : List Bytes)
    (hfit : ∀ c ∈ cs, c.Fits C hd.headerType.algorithm mk U i) (hf : KeyFile (d.file i) hd ks aad) (hsl : SlotsFor C hd.headerType.algorithm mk U l ks) (hl : ∀ pw ∈ l, pw ∈ U)
    (hls : ∀ c ∈ ls, c.Fits i) (hap : ls.Pairwise fun a b => a.output ≠ b.output) (hb : BodyOf C hd mk aad p ((d.file i).drop 416)) (order : List Nat) (a : Nat) (c : LookCall) (hc : ls[a]? = some c) (pw : Bytes)
    (hw : c.what = .decrypt pw) (hpw : pw ∈ l) (hno : ∀ k ∈ cs, ¬ k.cmd.takes pw) (hs : c.self.sched = []) (r : Res Cli.Error Unit) (hr : KeyReturned ((startBoth C cs ls d).run order) (cs.length + a) r) :
    r = .ok () ∧ ((startBoth C cs ls d).run order).disk.file c.output = writeAt (d.file c.output) (c.self.fd c.writer).pos p := by
  obtain ⟨js, b, req, w, v, r', h1, h2, h3, h4, h5, h6, h7, h8⟩ := look_decides hC hfit hf hsl hl hls hap hb order hc hw hr
  have hm : pw ∈ (onListAll (chosen cs js) l).2 := ConcLook.all_keeps _ _ (fun k hk => by
    obtain ⟨k', hk', e⟩ := ConcLook.chosen_mem hk
    rw [← e]; exact hno k' hk') hpw
  obtain ⟨v', e1, e2, -⟩ := (h1 pw (hl pw hpw)).1 hm req w h2 (h3.trans hs)
  rw [h4] at e1; cases e1
  refine ⟨h5, ?_⟩
  rw [← h6, ← h7, ← h8]
  have := e2.content
  rw [h8] at this ⊢
  exact this

/-- **C99 (nothing else comes out).** Whenever a decrypting call with one of the passwords in play returns `Ok`, and there were no short transfers in it, it has written the plaintext. -/
theorem C99_only (C : Crypto) (hC : C.Lawful) (cs : List KeyCall) (ls : List LookCall) (d : Disk) (i : Nat) (hd : Header) (ks : List Keyslot) (aad mk p : Bytes) (U l : List Bytes)
    (hfit : ∀ c ∈ cs, c.Fits C hd.headerType.algorithm mk U i) (hf : KeyFile (d.file i) hd ks aad) (hsl : SlotsFor C hd.headerType.algorithm mk U l ks) (hl : ∀ pw ∈ l, pw ∈ U)
    (hls : ∀ c ∈ ls, c.Fits i) (hap : ls.Pairwise fun a b => a.output ≠ b.output) (hb : BodyOf C hd mk aad p ((d.file i).drop 416)) (order : List Nat) (a : Nat) (c : LookCall) (hc : ls[a]? = some c) (pw : Bytes)
    (hw : c.what = .decrypt pw) (hpw : pw ∈ U) (hs : ∀ k, Io.short k ∉ c.self.sched) (hr : KeyReturned ((startBoth C cs ls d).run order) (cs.length + a) (.ok ())) :
    ((startBoth C cs ls d).run order).disk.file c.output = writeAt (d.file c.output) (c.self.fd c.writer).pos p := by
  obtain ⟨js, b, req, w, v, r', h1, h2, h3, h4, h5, h6, h7, h8⟩ := look_decides hC hfit hf hsl hl hls hap hb order hc hw hr
  have hr' : r' = .ok () := by
    cases r' with
    | ok u => rfl
    | err e => cases h5
    | abort e => cases h5
  subst hr'
  by_cases hm : pw ∈ (onListAll (chosen cs js) l).2
  · have := (ConcLook.only_of_decryptsTo hC ((h1 pw hpw).1 hm) req w v h2 (by rw [h3]; exact hs) h4).content
    rw [h8] at this
    rw [← h6, ← h7]; exact this
  · obtain ⟨e, v', he, -⟩ := (h1 pw hpw).2 hm req w h2
    rw [h4] at he; cases he

/-- **C99 (a password that is not there).** A password that is not on the list and that no operation puts there is refused at any time, and nothing is written. -/
theorem C99_refused (C : Crypto) (hC : C.Lawful) (cs : List KeyCall) (ls : List LookCall) (d : Disk) (i : Nat) (hd : Header) (ks : List Keyslot) (aad mk p : Bytes) (U l : List Bytes)
    (hfit : ∀ c ∈ cs, c.Fits C hd.headerType.algorithm mk U i) (hf : KeyFile (d.file i) hd ks aad) (hsl : SlotsFor C hd.headerType.algorithm mk U l ks) (hl : ∀ pw ∈ l, pw ∈ U)
    (hls : ∀ c ∈ ls, c.Fits i) (hap : ls.Pairwise fun a b => a.output ≠ b.output) (hb : BodyOf C hd mk aad p ((d.file i).drop 416)) (order : List Nat) (a : Nat) (c : LookCall) (hc : ls[a]? = some c) (pw : Bytes)
    (hw : c.what = .decrypt pw) (hpw : pw ∈ U) (hnl : pw ∉ l) (hno : ∀ k ∈ cs, ¬ k.cmd.gives pw) (r : Res Cli.Error Unit) (hr : KeyReturned ((startBoth C cs ls d).run order) (cs.length + a) r) :
    (∃ e, r = .err e) ∧ ((startBoth C cs ls d).run order).disk.file c.output = d.file c.output := by
  obtain ⟨js, b, req, w, v, r', h1, h2, h3, h4, h5, h6, h7, h8⟩ := look_decides hC hfit hf hsl hl hls hap hb order hc hw hr
  have hm : pw ∉ (onListAll (chosen cs js) l).2 := ConcLook.all_no_more _ _ (fun k hk => by
    obtain ⟨k', hk', e⟩ := ConcLook.chosen_mem hk
    rw [← e]; exact hno k' hk') hnl
  obtain ⟨e, v', he, hv⟩ := (h1 pw hpw).2 hm req w h2
  rw [h4] at he; cases he
  exact ⟨⟨_, h5⟩, by rw [← h6, hv, h7]⟩

/-- **C99 (dumping).** A dump that returns `Ok`, without short transfers, has written the header that the file had at one moment of the call. -/
theorem C99_dump (C : Crypto) (hC : C.Lawful) (cs : List KeyCall) (ls : List LookCall) (d : Disk) (i : Nat) (hd : Header) (ks : List Keyslot) (aad mk : Bytes) (U l : List Bytes)
    (hfit : ∀ c ∈ cs, c.Fits C hd.headerType.algorithm mk U i) (hf : KeyFile (d.file i) hd ks aad) (hsl : SlotsFor C hd.headerType.algorithm mk U l ks) (hl : ∀ pw ∈ l, pw ∈ U)
    (hls : ∀ c ∈ ls, c.Fits i) (hap : ls.Pairwise fun a b => a.output ≠ b.output) (order : List Nat) (a : Nat) (c : LookCall) (hc : ls[a]? = some c) (hw : c.what = .dump) (hs : ∀ k, Io.short k ∉ c.self.sched)
    (hr : KeyReturned ((startBoth C cs ls d).run order) (cs.length + a) (.ok ())) :
    ∃ xs ys hd' aad' aad'' H, order = xs ++ (cs.length + a) :: ys ∧ IsHeader (((startBoth C cs ls d).run xs).disk.file i) hd' aad' ∧ hd'.headerType = hd.headerType ∧ hd'.nonce = hd.nonce ∧
      WrittenHeader .v5 H ∧ H.length = 416 ∧ IsHeader H hd' aad'' ∧ ((startBoth C cs ls d).run order).disk.file c.output = writeAt (d.file c.output) (c.self.fd c.writer).pos H := by
  obtain ⟨xs, ys, js, b, v, h0, hb, h1, ⟨-, -, hd', ks', hk, ht, hn, -⟩, h3, h4⟩ := C99_moment C hC cs ls d i hd ks aad mk U l hfit hf hsl hl hls hap order a c hc _ hr
  have h := hls c (List.mem_of_getElem? hc)
  rw [hw] at h3
  have h3 : ((HeaderOps.dump c.reader c.writer).mapErr Cli.Error.headerOp) (c.self.on (withFile d i b)) = (.ok (), v) := h3
  have hrest : (((c.self.on (withFile d i b)).file ((c.self.on (withFile d i b)).fd c.reader).ino).drop ((c.self.on (withFile d i b)).fd c.reader).pos) = b := by
    show ((c.self.on (withFile d i b)).file (c.self.fd c.reader).ino).drop (c.self.fd c.reader).pos = b
    rw [h.fd]
    show (if i = i then b else _).drop 0 = b
    rw [if_pos rfl, List.drop_zero]
  have hok : HeaderOps.dump c.reader c.writer (c.self.on (withFile d i b)) = (.ok (), v) := by
    cases e : HeaderOps.dump c.reader c.writer (c.self.on (withFile d i b)) with
    | mk r' v' =>
      simp only [Prog.mapErr, e] at h3
      cases r' <;> cases h3 <;> rfl
  obtain ⟨H, aad'', w1, w2, w3, w4⟩ := C30_dump_reads_back hd' aad c.reader c.writer h.handles (c.self.on (withFile d i b)) v (by rw [hrest]; exact hk.header) hs hok
  rw [hk.v5] at w1 w2
  refine ⟨xs, ys, hd', aad, aad'', H, h0, by rw [← hb]; exact hk.header, ht, hn, w1, w2, w3, ?_⟩
  rw [← h4]
  have := w4.content
  rw [show (c.self.on (withFile d i b)).file ((c.self.on (withFile d i b)).fd c.writer).ino = d.file c.output from if_neg h.files] at this
  exact this

/-! ### The hypotheses are met -/

/-- While one process adds a password and another one changes that, a third one decrypts the file with the password that is there from the start, a fourth one with one that never is, and a fifth one dumps the header. -/
def exLooks : List LookCall := [⟨.decrypt [112, 119], 0, 1, Example.world1 exFile⟩, ⟨.decrypt [7], 0, 2, Example.world1 exFile⟩, ⟨.dump, 0, 3, Example.world1 exFile⟩]

def exChanges : List KeyCall := exPair (.add [112, 119] [9, 9] (.blake3Balloon 5)) (.verify [112, 119])

def exLookTurns : List Nat := (List.range 100).map (· % 5)

/-- The hypotheses of the theorems are met, all calls return when they take turns, and the password that is not there is refused. -/
example : (∀ c ∈ exChanges, c.Fits Example.toy .aes256Gcm (List.replicate 32 5) exU 0) ∧ (∀ c ∈ exLooks, c.Fits 0) ∧ (exLooks.Pairwise fun a b => a.output ≠ b.output) ∧
    (∀ k ∈ exChanges, ¬ k.cmd.takes [112, 119]) ∧ (∀ k ∈ exChanges, ¬ k.cmd.gives [7]) ∧
    (∀ j ∈ [0, 1, 2, 4], exCallOk ((startBoth Example.toy exChanges exLooks exKeyDisk).run exLookTurns) j = true) ∧ exCallOk ((startBoth Example.toy exChanges exLooks exKeyDisk).run exLookTurns) 3 = false ∧
    ((startBoth Example.toy exChanges exLooks exKeyDisk).run exLookTurns).disk.file 1 = writeAt exFile 0 [1, 2, 3] := by
  refine ⟨exPair_fits (by decide) (by decide), ?_, ?_, ?_, ?_, by decide +kernel, by decide +kernel, by decide +kernel⟩
  · intro c hc
    simp only [exLooks, List.mem_cons, List.not_mem_nil, or_false] at hc
    rcases hc with rfl | rfl | rfl <;> exact ⟨rfl, by decide, by decide⟩
  · simp only [exLooks, List.pairwise_cons, List.mem_cons, List.not_mem_nil, or_false]
    refine ⟨?_, ?_, ?_, .nil⟩
    · intro c hc; rcases hc with rfl | rfl <;> decide
    · intro c hc; subst hc; decide
    · intro c hc; cases hc
  · intro k hk
    simp only [exChanges, exPair, List.mem_cons, List.not_mem_nil, or_false] at hk
    rcases hk with rfl | rfl <;> exact id
  · intro k hk
    simp only [exChanges, exPair, List.mem_cons, List.not_mem_nil, or_false] at hk
    rcases hk with rfl | rfl
    · show ¬ ([9, 9] : Bytes) = [7]; decide
    · exact id

end Volaris.Props
