import Verif.Spec.ConcKeys
import Verif.Proofs.KeyFaults
import Verif.Proofs.Steps
/-!
# Key operations on one file at the same time

A process reads the header of the file in one step, makes up its mind, and writes a new header in one step.
-/
namespace Volaris.ConcKeys
open Volaris.Spec Volaris.KeyOps

/-- All that is fixed: the file with its encrypted data, the passwords in play, and the call. -/
structure Ctx where
  C : Crypto
  t : HeaderType
  nonce : Bytes
  aad : Bytes
  key : Bytes
  body : Bytes
  U : List Bytes
  ino : Nat
  h : Nat
  cmd : KeyCmd
  self : World

/-- `b` is a file whose keyslots belong to the passwords `l`. -/
structure Ctx.Holds (x : Ctx) (l : List Bytes) (b : Bytes) : Prop where
  sub : ∀ pw ∈ l, pw ∈ x.U
  body : b.drop 416 = x.body
  file : ∃ (hd : Header) (ps : List (Bytes × Keyslot)), KeyFile b hd (ps.map Prod.snd) x.aad ∧ hd.headerType = x.t ∧ hd.nonce = x.nonce ∧
    ps.map Prod.fst = l ∧ ∀ q ∈ ps, Opens x.C x.t.algorithm q.1 q.2 x.key ∧ ∀ pw ∈ x.U, pw ≠ q.1 → ∀ m, ¬ Opens x.C x.t.algorithm pw q.2 m

/-- How far the process is: it has not yet read the header; it has read that of the version with the passwords `l`; it has written its own. -/
inductive Phase where
  | fresh
  | read (l : List Bytes)
  | wrote

/-- What one step does, when the file holds the passwords `l0`. -/
def Ctx.Trans (x : Ctx) (l0 : List Bytes) (v v' : World) (ph ph' : Phase) : Prop :=
  (v'.disk = v.disk ∧ (ph' = ph ∨ (ph = .fresh ∧ ph' = .read l0))) ∨
  ∃ l, ¬ x.cmd.looksOnly ∧ ph = .read l ∧ ph' = .wrote ∧ (x.cmd.onList l).1 = .ok () ∧ v'.dir = v.dir ∧ v'.nextIno = v.nextIno ∧ (∀ j, j ≠ x.ino → v'.file j = v.file j) ∧
    x.Holds (x.cmd.onList l).2 (v'.file x.ino)

variable {ε ε' α β : Type}

/-- Whatever valid version of the file is there at each step, every step is one of these, there is none after writing, and at the end `Q` holds. -/
def Tame (x : Ctx) (Q : α → World → Phase → Prop) : Thr ε α → World → Phase → Prop
  | .done r, w, ph => (∀ y, r = .ok y → Q y w ph) ∧ (∀ a, r ≠ .abort a) ∧ (ph = .wrote → ∃ y, r = .ok y)
  | .step eff k, w, ph => ph ≠ .wrote ∧ ∀ d l0, x.Holds l0 (d.file x.ino) → ∃ ph', x.Trans l0 (w.on d) (eff (w.on d)) ph ph' ∧ Tame x Q (k (w.on d)) (eff (w.on d)) ph'

variable {x : Ctx} {w : World} {ph : Phase}

namespace Tame
variable {Q : α → World → Phase → Prop}

theorem bind {f : α → Thr ε β} {Q' : β → World → Phase → Prop} : ∀ {t : Thr ε α} {w : World} {ph : Phase}, Tame x Q t w ph → (∀ y w ph, Q y w ph → Tame x Q' (f y) w ph) → Tame x Q' (t >>= f) w ph := by
  intro t
  rw [Thr.bind_eq]
  induction t with
  | done r =>
    intro w ph ⟨h1, h2, h3⟩ hf
    cases r with
    | ok y => exact hf y w ph (h1 y rfl)
    | err e => exact ⟨fun y hy => (by cases hy), fun a ha => (by cases ha), fun hw => by obtain ⟨y, hy⟩ := h3 hw; cases hy⟩
    | abort a => exact absurd rfl (h2 a)
  | step eff k ih =>
    intro w ph ⟨h1, h2⟩ hf
    refine ⟨h1, fun d l0 hd => ?_⟩
    obtain ⟨ph', h3, h4⟩ := h2 d l0 hd
    exact ⟨ph', h3, ih _ h4 hf⟩

theorem mapErr {g : ε → ε'} : ∀ {t : Thr ε α} {w : World} {ph : Phase}, Tame x Q t w ph → Tame x Q (t.mapErr g) w ph := by
  intro t
  induction t with
  | done r =>
    intro w ph ⟨h1, h2, h3⟩
    cases r with
    | ok y => exact ⟨fun y hy => by cases hy; exact h1 _ rfl, fun a ha => (by cases ha), fun _ => ⟨_, rfl⟩⟩
    | err e => exact ⟨fun y hy => (by cases hy), fun a ha => (by cases ha), fun hw => by obtain ⟨y, hy⟩ := h3 hw; cases hy⟩
    | abort a => exact absurd rfl (h2 a)
  | step eff k ih =>
    intro w ph ⟨h1, h2⟩
    refine ⟨h1, fun d l0 hd => ?_⟩
    obtain ⟨ph', h3, h4⟩ := h2 d l0 hd
    exact ⟨ph', h3, ih _ h4⟩

theorem pure {y : α} (h : Q y w ph) : Tame x Q (Pure.pure y : Thr ε α) w ph := ⟨fun _ hy => (by cases hy; exact h), fun a ha => (by cases ha), fun _ => ⟨_, rfl⟩⟩

theorem err {e : ε} (h : ph ≠ .wrote) : Tame x Q (.done (.err e)) w ph := ⟨fun y hy => (by cases hy), fun a ha => (by cases ha), fun hw => absurd hw h⟩

theorem ok {y : α} (h : Q y w ph) : Tame x Q (.done (.ok y) : Thr ε α) w ph := pure h

theorem imp {Q' : α → World → Phase → Prop} (hq : ∀ y w ph, Q y w ph → Q' y w ph) : ∀ {t : Thr ε α} {w : World} {ph : Phase}, Tame x Q t w ph → Tame x Q' t w ph := by
  intro t
  induction t with
  | done r => exact fun ⟨h1, h2, h3⟩ => ⟨fun y hy => hq _ _ _ (h1 y hy), h2, h3⟩
  | step eff k ih =>
    intro w ph ⟨h1, h2⟩
    refine ⟨h1, fun d l0 hd => ?_⟩
    obtain ⟨ph', h3, h4⟩ := h2 d l0 hd
    exact ⟨ph', h3, ih _ h4⟩

theorem atom {p : Prog ε α} (hne : ph ≠ .wrote) (h : ∀ d l0, x.Holds l0 (d.file x.ino) →
    (∃ e w', p (w.on d) = (.err e, w') ∧ w'.disk = d) ∨ (∃ y w' ph', p (w.on d) = (.ok y, w') ∧ x.Trans l0 (w.on d) w' ph ph' ∧ Q y w' ph')) : Tame x Q (Thr.atom p) w ph := by
  refine ⟨hne, fun d l0 hd => ?_⟩
  rcases h d l0 hd with ⟨e, w', hp, hw⟩ | ⟨y, w', ph', hp, ht, hq⟩
  · refine ⟨ph, ?_, ?_⟩
    · show x.Trans l0 _ (p (w.on d)).2 _ _
      rw [hp]; exact .inl ⟨hw, .inl rfl⟩
    · show Tame x Q (.done (p (w.on d)).1) (p (w.on d)).2 ph
      rw [hp]; exact err hne
  · refine ⟨ph', ?_, ?_⟩
    · show x.Trans l0 _ (p (w.on d)).2 _ _
      rw [hp]; exact ht
    · show Tame x Q (.done (p (w.on d)).1) (p (w.on d)).2 ph'
      rw [hp]; exact ok hq

end Tame

/-! ### What the process knows of its own -/

/-- The handle is at `p`, there will be no short transfers, and `n` random bytes have been drawn. -/
structure Mine (x : Ctx) (w : World) (p n : Nat) : Prop where
  fd : w.fd x.h = ⟨x.ino, p⟩
  short : NoShort w.sched
  rng : Used n x.self w

theorem Mine.core {w' v : World} {p p' n : Nat} (h : Mine x w p n) (hc : w'.core = (v.setPos x.h p').core) (hfd : v.fd = w.fd) (hr : v.rng = w.rng) (hs : w'.sched <:+ w.sched) : Mine x w' p' n where
  fd := by rw [World.fd_of_core hc]; simp [World.setPos, hfd, h.fd]
  short := h.short.of_suffix hs
  rng := fun i => by rw [World.rng_of_core hc]; show v.rng i = _; rw [hr]; exact h.rng i

theorem disk_of_core {w w' : World} (h : w'.core = w.core) : w'.disk = w.disk := by
  unfold World.disk
  rw [World.file_of_core h, World.dir_of_core h, World.nextIno_of_core h]

theorem holds_size {l : List Bytes} {b : Bytes} (h : x.Holds l b) : 416 ≤ b.length ∧ parseVersion (b.take 2) = some .v5 := by
  obtain ⟨hd, ps, hf, _⟩ := h.file
  have h1 := hf.header.size
  have h2 := isHeader_version hf.header
  rw [hf.v5] at h1 h2
  exact ⟨h1, h2⟩

/-- Reading the version. -/
theorem tame_version {n : Nat} (hm : Mine x w 0 n) (g : IoErr → ε) :
    Tame x (fun b w ph => parseVersion b = some .v5 ∧ Mine x w 2 n ∧ ph = .fresh) (Thr.atom ((readExact x.h 2).mapErr g)) w .fresh := by
  refine .atom (by simp) fun d l0 hd => ?_
  have hsz := holds_size hd
  have hrest : (w.on d).rest x.h = d.file x.ino := by show (d.file (w.fd x.h).ino).drop (w.fd x.h).pos = _; rw [hm.fd]; rfl
  have hsh := Shrinks.readExact x.h 2 (w.on d)
  rcases readExact_spec x.h 2 (w.on d) with ⟨w', _, he, hc⟩ | ⟨e, w', k, he, hc⟩
  · rw [he] at hsh
    refine .inr ⟨_, w', .fresh, Prog.mapErr_ok he, .inl ⟨(disk_of_core hc).trans rfl, .inl rfl⟩, ?_, ?_, rfl⟩
    · rw [hrest]; exact hsz.2
    · refine hm.core (v := w.on d) (p' := 2) (hc.trans ?_) rfl rfl hsh
      show ((w.on d).setPos x.h ((w.fd x.h).pos + 2)).core = _
      rw [hm.fd]
  · exact .inl ⟨_, w', Prog.mapErr_err he, disk_of_core hc⟩

theorem tame_seek {n p : Nat} {ph : Phase} (hne : ph ≠ .wrote) (hm : Mine x w p n) (j : Nat) (g : IoErr → ε) :
    Tame x (fun _ w ph' => Mine x w (p - j) n ∧ ph' = ph) (Thr.atom ((seekCur x.h (-(j : Int))).mapErr g)) w ph := by
  refine .atom hne fun d l0 hd => ?_
  have hsh := Shrinks.seekCur x.h (-(j : Int)) (w.on d)
  rcases seekCur_spec x.h (-(j : Int)) (w.on d) with ⟨w', he, _, hc⟩ | ⟨e, w', he, hc⟩
  · rw [he] at hsh
    refine .inr ⟨_, w', ph, Prog.mapErr_ok he, .inl ⟨(disk_of_core hc).trans rfl, .inl rfl⟩, ?_, rfl⟩
    refine hm.core (v := w.on d) (hc.trans ?_) rfl rfl hsh
    show ((w.on d).setPos x.h (((w.fd x.h).pos : Int) + -(j : Int)).toNat).core = _
    rw [hm.fd]
    congr 2
    show (((p : Nat) : Int) + -(j : Int)).toNat = _
    omega
  · exact .inl ⟨_, w', Prog.mapErr_err he, disk_of_core hc⟩

/-- `full` is what a valid version starts with. -/
def Snap (x : Ctx) (l : List Bytes) (full : Bytes) : Prop := ∃ b, x.Holds l b ∧ full = b.take 416

theorem tame_header {n : Nat} (hm : Mine x w 0 n) (g : IoErr → ε) :
    Tame x (fun full w ph => ∃ l, ph = .read l ∧ Snap x l full ∧ Mine x w 416 n) (Thr.atom ((readExact x.h 416).mapErr g)) w .fresh := by
  refine .atom (by simp) fun d l0 hd => ?_
  have hsz := holds_size hd
  have hrest : (w.on d).rest x.h = d.file x.ino := by show (d.file (w.fd x.h).ino).drop (w.fd x.h).pos = _; rw [hm.fd]; rfl
  have hsh := Shrinks.readExact x.h 416 (w.on d)
  rcases readExact_spec x.h 416 (w.on d) with ⟨w', _, he, hc⟩ | ⟨e, w', k, he, hc⟩
  · rw [he] at hsh
    refine .inr ⟨_, w', .read l0, Prog.mapErr_ok he, .inl ⟨(disk_of_core hc).trans rfl, .inr ⟨rfl, rfl⟩⟩, l0, rfl, ⟨_, hd, by rw [hrest]⟩, ?_⟩
    refine hm.core (v := w.on d) (p' := 416) (hc.trans ?_) rfl rfl hsh
    show ((w.on d).setPos x.h ((w.fd x.h).pos + 416)).core = _
    rw [hm.fd]
  · exact .inl ⟨_, w', Prog.mapErr_err he, disk_of_core hc⟩

/-- What was read, understood. -/
structure Loaded (x : Ctx) (l : List Bytes) (hd : Header) (ps : List (Bytes × Keyslot)) : Prop where
  sub : ∀ pw ∈ l, pw ∈ x.U
  v5 : hd.headerType.version = .v5
  slots : hd.keyslots = some (ps.map Prod.snd)
  type : hd.headerType = x.t
  nonce : hd.nonce = x.nonce
  list : ps.map Prod.fst = l
  apart : ∀ q ∈ ps, Opens x.C x.t.algorithm q.1 q.2 x.key ∧ ∀ pw ∈ x.U, pw ≠ q.1 → ∀ m, ¬ Opens x.C x.t.algorithm pw q.2 m
  len : ps.length ≤ 4
  ok : ∀ q ∈ ps, SlotOk x.t.algorithm q.2
  written : ∀ (b : Bytes) (l' : List Bytes), x.Holds l' b → ∀ ps' : List (Bytes × Keyslot), ps'.length ≤ 4 → (∀ q ∈ ps', SlotOk x.t.algorithm q.2) → (∀ pw ∈ ps'.map Prod.fst, pw ∈ x.U) →
    (∀ q ∈ ps', Opens x.C x.t.algorithm q.1 q.2 x.key ∧ ∀ pw ∈ x.U, pw ≠ q.1 → ∀ m, ¬ Opens x.C x.t.algorithm pw q.2 m) →
    (bytesV5 hd.headerType hd.nonce (ps'.map Prod.snd)).length = 416 ∧ x.Holds (ps'.map Prod.fst) (bytesV5 hd.headerType hd.nonce (ps'.map Prod.snd) ++ b.drop 416)

theorem Snap.parse {l : List Bytes} {full : Bytes} (h : Snap x l full) : ∃ hd ps, parseHeader .v5 full = .ok (hd, x.aad) ∧ Loaded x l hd ps := by
  obtain ⟨b, hb, rfl⟩ := h
  obtain ⟨hd, ps, hf, rfl', rfl'', hl, hps⟩ := hb.file
  have hv := isHeader_version hf.header
  have hsz := hf.header.size
  rw [hf.v5] at hv hsz
  have hks := (isHeader_sized hf.header).2 _ hf.slots
  refine ⟨hd, ps, (parseHeader_iff b .v5 hd x.aad hv hsz).2 ⟨hf.v5, hf.header⟩, hb.sub, hf.v5, hf.slots, rfl', rfl'', hl, hps, ?_, ?_, ?_⟩
  · have := hks.1; rwa [List.length_map] at this
  · intro q hq; rw [← rfl']; exact hks.2 _ (List.mem_map.2 ⟨q, hq, rfl⟩)
  · intro b' l' hb' ps' h1 h2 h3 h4
    obtain ⟨hd', ps'', hf', e1, e2, _⟩ := hb'.file
    have hn := (isHeader_sized hf.header).1
    have hl4 : (ps'.map Prod.snd).length ≤ 4 := by rw [List.length_map]; exact h1
    have hsl : ∀ k ∈ ps'.map Prod.snd, SlotOk hd'.headerType.algorithm k := by
      intro k hk
      obtain ⟨q, hq, rfl⟩ := List.mem_map.1 hk
      rw [e1]; exact h2 q hq
    have hH := bytesV5_length (t := hd.headerType) hn hl4 (fun k hk => by have := hsl k hk; rwa [e1, ← rfl'] at this)
    refine ⟨hH, h3, ?_, ?_⟩
    · rw [List.drop_left' hH]; exact hb'.body
    · have := hf'.written hl4 hsl (b'.drop 416)
      rw [e1, e2, ← rfl', ← rfl''] at this
      exact ⟨_, ps', this, rfl', rfl'', rfl, h4⟩

/-- The whole header. -/
theorem tame_deserialize (hm : Mine x w 0 0) :
    Tame x (fun y w ph => ∃ l ps, ph = .read l ∧ Loaded x l y.1 ps ∧ Mine x w 416 0) (Cli.Steps.deserialize x.h) w .fresh := by
  unfold Cli.Steps.deserialize
  refine .bind (tame_version hm _) fun b w ph ⟨hb, hm, hph⟩ => ?_
  subst hph
  refine .bind (tame_seek (by simp) hm 2 _) fun _ w ph ⟨hm, hph⟩ => ?_
  subst hph
  rw [hb]
  simp only
  refine .bind (tame_header hm _) fun full w ph ⟨l, hph, hs, hm⟩ => ?_
  obtain ⟨hd, ps, he, hl⟩ := hs.parse
  rw [he]
  exact .ok ⟨l, ps, hph, hl, hm⟩

theorem tame_load (hm : Mine x w 0 0) :
    Tame x (fun y w ph => ∃ l ps, ph = .read l ∧ Loaded x l y.1 ps ∧ y.2 = ps.map Prod.snd ∧ Mine x w 0 0) (Cli.Steps.keyLoad x.h) w .fresh := by
  unfold Cli.Steps.keyLoad
  refine .bind (.mapErr (tame_deserialize hm)) fun ⟨hd, aad⟩ w ph ⟨l, ps, hph, hl, hm⟩ => ?_
  subst hph
  simp only
  have hv : hd.headerType.version = .v5 := hl.v5
  rw [if_neg (by simp [hv, HeaderVersion.rank])]
  have hsz : hd.getSize = 416 := by simp [Header.getSize, size_eq, hv, headerSize]
  rw [hsz]
  refine .bind (tame_seek (by simp) hm 416 _) fun _ w ph ⟨hm, hph⟩ => ?_
  have hk : hd.keyslots = _ := hl.slots
  rw [hk]
  exact .pure ⟨l, ps, hph, hl, rfl, hm⟩

theorem tame_draw {n p : Nat} {ph : Phase} (hne : ph ≠ .wrote) (hm : Mine x w p n) (k : Nat) :
    Tame (ε := ε) x (fun b w ph' => b = tape x.self n k ∧ Mine x w p (n + k) ∧ ph' = ph) (Thr.atom (genBytes k)) w ph := by
  refine .atom hne fun d l0 _ => .inr ⟨_, _, ph, genBytes_draw _ _, .inl ⟨rfl, .inl rfl⟩, ?_, ⟨hm.fd, hm.short, fun i => ?_⟩, rfl⟩
  · unfold tape
    refine List.map_congr_left fun i _ => ?_
    show w.rng (0 + i) = _
    rw [Nat.zero_add, hm.rng]
  · show w.rng (i + k) = _
    rw [hm.rng]
    congr 1; omega

/-- Writing the new header. -/
theorem tame_store {n : Nat} {l : List Bytes} {hd : Header} {ps ps' : List (Bytes × Keyslot)} (hlook : ¬ x.cmd.looksOnly) (hm : Mine x w 0 n) (hl : Loaded x l hd ps) (hok : x.cmd.onList l = (.ok (), ps'.map Prod.fst))
    (h1 : ps'.length ≤ 4) (h2 : ∀ q ∈ ps', SlotOk x.t.algorithm q.2) (h3 : ∀ pw ∈ ps'.map Prod.fst, pw ∈ x.U)
    (h4 : ∀ q ∈ ps', Opens x.C x.t.algorithm q.1 q.2 x.key ∧ ∀ pw ∈ x.U, pw ≠ q.1 → ∀ m, ¬ Opens x.C x.t.algorithm pw q.2 m) :
    Tame x (fun _ _ ph => ph = .wrote) (Cli.Steps.keyStore x.h hd (ps'.map Prod.snd)) w (.read l) := by
  unfold Cli.Steps.keyStore Cli.Steps.headerWrite
  refine .mapErr ?_
  rw [serialize_v5 (h := { hd with keyslots := some (ps'.map Prod.snd) }) hl.v5 rfl (by rw [List.length_map]; exact h1)]
  refine .bind (Q := fun y w' ph => y = bytesV5 hd.headerType hd.nonce (ps'.map Prod.snd) ∧ w' = w ∧ ph = .read l) (.ok ⟨rfl, rfl, rfl⟩) fun bs w' ph ⟨hb, hw, hph⟩ => ?_
  subst hb hw hph
  refine .bind (Q := fun _ _ ph => ph = .wrote) (.atom (by simp) fun d l0 hd0 => ?_) fun _ w ph hph => .pure hph
  rcases write_spec x.h (bytesV5 hd.headerType hd.nonce (ps'.map Prod.snd)) (w'.on d) with ⟨k, w1, he, hc⟩ | ⟨e, w1, he, hc⟩
  · have hc := write_noShort (w := w'.on d) hm.short he
    obtain ⟨hlen, hh⟩ := hl.written _ _ hd0 ps' h1 h2 h3 h4
    refine .inr ⟨_, w1, .wrote, Prog.mapErr_ok he, .inr ⟨l, hlook, rfl, rfl, by rw [hok], ?_, ?_, fun j hj => ?_, ?_⟩, rfl⟩
    · rw [World.dir_of_core hc]; rfl
    · rw [World.nextIno_of_core hc]; rfl
    · rw [World.file_of_core hc]
      show (if j = (w'.fd x.h).ino then _ else _) = _
      rw [hm.fd, if_neg hj]
    · rw [World.file_of_core hc, hok]
      have : ((w'.on d).put x.h (bytesV5 hd.headerType hd.nonce (ps'.map Prod.snd))).file x.ino = bytesV5 hd.headerType hd.nonce (ps'.map Prod.snd) ++ (d.file x.ino).drop 416 := by
        show (if x.ino = (w'.fd x.h).ino then writeAt (d.file x.ino) (w'.fd x.h).pos _ else _) = _
        rw [hm.fd, if_pos rfl]
        unfold writeAt
        rw [if_neg (by intro e; rw [e] at hlen; cases hlen), hlen]
        simp
      rw [this]
      exact hh
  · exact .inl ⟨_, w1, Prog.mapErr_err he, disk_of_core hc⟩

/-! ### The four operations -/

/-- At the end: the file is written, or it was only to be looked at. -/
def Outcome (x : Ctx) (_ : Unit) (_ : World) (ph : Phase) : Prop := ph = .wrote ∨ ∃ l pw, x.cmd = .verify pw ∧ ph = .read l ∧ (x.cmd.onList l).1 = .ok ()

/-- What is asked of the call. -/
structure Ctx.Ready (x : Ctx) : Prop where
  lawful : x.C.Lawful
  known : ∀ pw ∈ x.cmd.passwords, pw ∈ x.U
  apart : ToldApart x.C x.t.algorithm x.key x.U x.self 1

theorem Loaded.withIndex {l : List Bytes} {hd : Header} {ps : List (Bytes × Keyslot)} (hl : Loaded x l hd ps) (hC : x.C.Lawful) {pw : Bytes} (hU : pw ∈ x.U) :
    (∃ e, decryptV5MasterKeyWithIndex x.C (ps.map Prod.snd) pw hd.headerType.algorithm = .err e) ∨
    ∃ p1 k0 p2, ps = p1 ++ (pw, k0) :: p2 ∧ pw ∉ p1.map Prod.fst ∧ x.key.length = 32 ∧ decryptV5MasterKeyWithIndex x.C (ps.map Prod.snd) pw hd.headerType.algorithm = .ok (x.key, p1.length) := by
  have hok : ∀ k ∈ ps.map Prod.snd, SlotOk hd.headerType.algorithm k := by
    intro k hk
    obtain ⟨q, hq, rfl⟩ := List.mem_map.1 hk
    rw [hl.type]; exact hl.ok q hq
  rcases withIndex_cases hC pw hok with ⟨mk', b, k0, af, h1, h2, h3, h4, h5, h6⟩ | ⟨h1, _⟩ | ⟨h1, _⟩
  · rw [hl.type] at h3 h4
    obtain ⟨p1, p2, e, e1, e2, rfl, hnot⟩ := KeyInv.split hl.apart hU h2 h3 h4
    exact .inr ⟨p1, k0, p2, e, hnot, h5, by rw [h1, ← e1, List.length_map]⟩
  · exact .inl ⟨_, h1⟩
  · exact .inl ⟨_, h1⟩

theorem Ctx.Ready.toldApart (hx : x.Ready) {pw pw' : Bytes} (h : pw ∈ x.U) (h' : pw' ∈ x.U) (hne : pw ≠ pw') {hash : HashingAlgorithm} {k : Keyslot} {m : Bytes}
    (hk : SealedSlot x.C x.t.algorithm x.key pw hash (tape x.self 0 16) (tape x.self 16 (nonceLength x.t.algorithm .memoryMode)) k) : ¬ Opens x.C x.t.algorithm pw' k m :=
  hx.apart 0 (Nat.zero_le _) pw h pw' h' hne hash k m (by rw [Nat.zero_add]; exact hk)

theorem supported {C : Crypto} {a : Algorithm} {mk new : Bytes} {hash : HashingAlgorithm} {s n : Bytes} {k : Keyslot} (hk : SealedSlot C a mk new hash s n k) : hash ∈ supportedHashes := by
  obtain ⟨_, ⟨f, hf, _⟩, _⟩ := hk.sealed
  exact kdfParams_mem.2 ⟨f, hf⟩

theorem tame_verify {pw : Bytes} (hc : x.cmd = .verify pw) (hx : x.Ready) (hm : Mine x w 0 0) : Tame x (Outcome x) (Cli.Steps.keyVerifyExecute x.C x.h pw) w .fresh := by
  have hU : pw ∈ x.U := hx.known pw (by rw [hc]; simp [KeyCmd.passwords])
  unfold Cli.Steps.keyVerifyExecute
  refine .bind (.mapErr (tame_deserialize hm)) fun ⟨hd, aad⟩ w ph ⟨l, ps, hph, hl, hm⟩ => ?_
  subst hph
  simp only
  have hv : hd.headerType.version = .v5 := hl.v5
  have hk : hd.keyslots = _ := hl.slots
  rw [if_neg (by simp [hv, HeaderVersion.rank]), hk]
  simp only
  rcases hl.withIndex hx.lawful hU with ⟨e, he⟩ | ⟨p1, k0, p2, e, _, _, he⟩
  · rw [he]; exact .err (by simp)
  · rw [he]
    refine .ok (.inr ⟨l, pw, hc, rfl, ?_⟩)
    have hmem : pw ∈ l := by rw [← hl.list, e]; simp
    rw [hc]
    simp only [KeyCmd.onList, if_neg (not_not_intro hmem)]

theorem tame_delete {pw : Bytes} (hc : x.cmd = .delete pw) (hx : x.Ready) (hm : Mine x w 0 0) : Tame x (Outcome x) (Cli.Steps.keyDeleteExecute x.C x.h pw) w .fresh := by
  have hU : pw ∈ x.U := hx.known pw (by rw [hc]; simp [KeyCmd.passwords])
  unfold Cli.Steps.keyDeleteExecute
  refine .bind (tame_load hm) fun ⟨hd, ks⟩ w ph ⟨l, ps, hph, hl, hks, hm⟩ => ?_
  subst hph
  simp only at hl hks
  subst hks
  simp only
  rcases hl.withIndex hx.lawful hU with ⟨e, he⟩ | ⟨p1, k0, p2, e, hnot, _, he⟩
  · rw [he]; exact .err (by simp)
  · rw [he]
    refine .bind (Q := fun y w' ph => y = (x.key, p1.length) ∧ w' = w ∧ ph = .read l) (.ok ⟨rfl, rfl, rfl⟩) fun y w' ph ⟨h1, h2, h3⟩ => ?_
    subst h1 h2 h3
    simp only
    have hlt : p1.length < (ps.map Prod.snd).length := by rw [e]; simp
    have hmem : pw ∈ l := by rw [← hl.list, e]; simp
    have hset : (ps.map Prod.snd).eraseIdx p1.length = (p1 ++ p2).map Prod.snd := by
      rw [e]; simp only [List.map_append, List.map_cons]
      rw [List.eraseIdx_append_of_length_le (by simp)]; simp
    rw [if_pos hlt, hset]
    have hsub : ∀ q, q ∈ p1 ++ p2 → q ∈ ps := fun q hq => by rw [e]; rcases List.mem_append.1 hq with h | h <;> simp [h]
    refine (tame_store (by rw [hc]; exact id) hm hl (ps' := p1 ++ p2) ?_ ?_ (fun q hq => hl.ok q (hsub q hq)) ?_ fun q hq => hl.apart q (hsub q hq)).imp fun _ _ _ h => .inl h
    · rw [hc]
      simp only [KeyCmd.onList, if_neg (not_not_intro hmem)]
      rw [← hl.list, e]; simp only [List.map_append, List.map_cons]; rw [List.erase_append_right _ hnot, List.erase_cons_head]
    · have := hl.len; rw [e] at this; simp at this ⊢; omega
    · intro pw' hpw'
      obtain ⟨q, hq, rfl⟩ := List.mem_map.1 hpw'
      exact hl.sub _ (by rw [← hl.list]; exact List.mem_map.2 ⟨q, hsub q hq, rfl⟩)

theorem tame_pure {r : Res ε α} {Q : α → World → Phase → Prop} (hne : ph ≠ .wrote) (hr : r.Returns) (h : ∀ y, r = .ok y → Q y w ph) : Tame x Q (.done r) w ph :=
  ⟨h, fun a ha => hr a ha, fun hw => absurd hw hne⟩

/-- The new keyslot. -/
theorem seals {hash : HashingAlgorithm} {new s n hk ek : Bytes} (hC : x.C.Lawful) (hlen : x.key.length = 32) (hn : n.length = nonceLength x.t.algorithm .memoryMode)
    (hh : hash.hash x.C new s = .ok hk) (he : encryptMasterKey x.C x.key hk n x.t.algorithm = .ok ek) :
    SealedSlot x.C x.t.algorithm x.key new hash s n { encryptedKey := ek, nonce := n, salt := s, hashAlgorithm := hash } := by
  have hh := hash_ok.1 hh
  refine ⟨rfl, rfl, rfl, hk, hh, ?_⟩
  rcases encryptMasterKey_cases hC hlen (hh.len hC) hn with ⟨ek', h1, h2⟩ | ⟨h1, _⟩
  · rw [he] at h1; cases h1; exact h2
  · rw [he] at h1; cases h1

theorem encryptMasterKey_returns {a : Algorithm} {hk n : Bytes} (hC : x.C.Lawful) (hlen : x.key.length = 32) (hl : hk.length = 32) (hn : n.length = nonceLength a .memoryMode) :
    (encryptMasterKey x.C x.key hk n a).Returns := by
  rcases encryptMasterKey_cases (a := a) hC hlen hl hn with ⟨ek', h1, _⟩ | ⟨h1, _⟩
  · rw [h1]; exact .ok _
  · rw [h1]; exact .err _

theorem hash_mapErr_returns {C : Crypto} {hash : HashingAlgorithm} {pw s : Bytes} {g : KeyErr → ε} : ((hash.hash C pw s).mapErr g).Returns := by
  have := hash_returns C hash pw s
  cases h : hash.hash C pw s with
  | ok y => exact .ok _
  | err e => exact .err _
  | abort a => exact absurd h (this a)

theorem tame_change {old new : Bytes} {hash : HashingAlgorithm} (hc : x.cmd = .change old new hash) (hx : x.Ready) (hm : Mine x w 0 0) :
    Tame x (Outcome x) (Cli.Steps.keyChangeExecute x.C { handle := x.h, rawKeyOld := old, rawKeyNew := new, hashAlgorithm := hash }) w .fresh := by
  have hU : old ∈ x.U := hx.known old (by rw [hc]; simp [KeyCmd.passwords])
  have hN : new ∈ x.U := hx.known new (by rw [hc]; simp [KeyCmd.passwords])
  unfold Cli.Steps.keyChangeExecute
  refine .bind (tame_load hm) fun ⟨hd, ks⟩ w ph ⟨l, ps, hph, hl, hks, hm⟩ => ?_
  subst hph
  simp only at hl hks
  subst hks
  simp only
  rcases hl.withIndex hx.lawful hU with ⟨e, he⟩ | ⟨p1, k0, p2, e, hnot, hlen, he⟩
  · rw [he]; exact .err (by simp)
  · rw [he]
    refine .bind (Q := fun y w' ph => y = (x.key, p1.length) ∧ w' = w ∧ ph = .read l) (.ok ⟨rfl, rfl, rfl⟩) fun y w' ph ⟨h1, h2, h3⟩ => ?_
    subst h1 h2 h3
    simp only
    refine .bind (tame_draw (by simp) hm 16) fun salt w ph ⟨hsalt, hm, hph⟩ => ?_
    subst hph
    refine .bind (Q := fun hk w' ph => hash.hash x.C new salt = .ok hk ∧ w' = w ∧ ph = .read l) (tame_pure (by simp) hash_mapErr_returns fun y hy => ⟨?_, rfl, rfl⟩) fun hk w' ph ⟨hhk, h2, h3⟩ => ?_
    · cases hh : hash.hash x.C new salt <;> rw [hh] at hy <;> cases hy; rfl
    subst h2 h3
    refine .bind (tame_draw (by simp) hm _) fun nonce w ph ⟨hnonce, hm, hph⟩ => ?_
    subst hph
    rw [getNonceLen_eq, Nat.zero_add] at hnonce
    rw [hl.type] at hnonce ⊢
    have hnl : nonce.length = nonceLength x.t.algorithm .memoryMode := by rw [hnonce]; simp
    have hsl : salt.length = 16 := by rw [hsalt]; simp
    refine .bind (Q := fun ek w' ph => encryptMasterKey x.C x.key hk nonce x.t.algorithm = .ok ek ∧ w' = w ∧ ph = .read l)
      (tame_pure (by simp) (encryptMasterKey_returns hx.lawful hlen ((hash_ok.1 hhk).len hx.lawful) hnl) fun y hy => ⟨hy, rfl, rfl⟩) fun ek w' ph ⟨hek, h2, h3⟩ => ?_
    subst h2 h3
    have hseal := seals hx.lawful hlen hnl hhk hek
    have hkok := hseal.ok hx.lawful hlen hsl hnl
    have hsup := supported hseal
    have hap : ∀ pw ∈ x.U, pw ≠ new → ∀ m, ¬ Opens x.C x.t.algorithm pw _ m := fun pw hpw hne m => hx.toldApart hN hpw hne.symm (m := m) (by rw [← hsalt, ← hnonce]; exact hseal)
    have hopen := hseal.opens hx.lawful
    generalize Keyslot.mk _ _ _ _ = k at hkok hap hopen ⊢
    have hlt : p1.length < (ps.map Prod.snd).length := by rw [e]; simp
    have hmem : old ∈ l := by rw [← hl.list, e]; simp
    have hset : (ps.map Prod.snd).set p1.length k = (p1 ++ (new, k) :: p2).map Prod.snd := by
      rw [e]; simp only [List.map_append, List.map_cons]
      rw [List.set_append_right _ _ (by simp)]; simp
    rw [if_pos hlt, hset]
    have hsub : ∀ q, q ∈ p1 ++ (new, k) :: p2 → q = (new, k) ∨ q ∈ ps := fun q hq => by
      rw [e]
      rw [List.mem_append, List.mem_cons] at hq
      rcases hq with h | h | h <;> simp [h]
    refine (tame_store (by rw [hc]; exact id) hm hl (ps' := p1 ++ (new, k) :: p2) ?_ ?_ ?_ ?_ ?_).imp fun _ _ _ h => .inl h
    · rw [hc]
      simp only [KeyCmd.onList, if_neg (not_not_intro hmem), if_neg (not_not_intro hsup)]
      rw [← hl.list, e]; simp only [List.map_append, List.map_cons]; rw [List.replace_append_right hnot, List.replace_cons_self]
    · have := hl.len; rw [e] at this; simp at this ⊢; omega
    · intro q hq
      rcases hsub q hq with rfl | hq
      · exact hkok
      · exact hl.ok q hq
    · intro pw' hpw'
      obtain ⟨q, hq, rfl⟩ := List.mem_map.1 hpw'
      rcases hsub q hq with rfl | hq
      · exact hN
      · exact hl.sub _ (by rw [← hl.list]; exact List.mem_map.2 ⟨q, hq, rfl⟩)
    · intro q hq
      rcases hsub q hq with rfl | hq
      · exact ⟨hopen, hap⟩
      · exact hl.apart q hq

theorem tame_add {old new : Bytes} {hash : HashingAlgorithm} (hc : x.cmd = .add old new hash) (hx : x.Ready) (hm : Mine x w 0 0) :
    Tame x (Outcome x) (Cli.Steps.keyAddExecute x.C { handle := x.h, rawKeyOld := old, rawKeyNew := new, hashAlgorithm := hash }) w .fresh := by
  have hU : old ∈ x.U := hx.known old (by rw [hc]; simp [KeyCmd.passwords])
  have hN : new ∈ x.U := hx.known new (by rw [hc]; simp [KeyCmd.passwords])
  unfold Cli.Steps.keyAddExecute
  refine .bind (tame_load hm) fun ⟨hd, ks⟩ w ph ⟨l, ps, hph, hl, hks, hm⟩ => ?_
  subst hph
  simp only at hl hks
  subst hks
  simp only
  rcases hl.withIndex hx.lawful hU with ⟨e, he⟩ | ⟨p1, k0, p2, e, hnot, hlen, he⟩
  · rw [he]; exact .err (by simp)
  · rw [he]
    refine .bind (Q := fun y w' ph => y = (x.key, p1.length) ∧ w' = w ∧ ph = .read l) (.ok ⟨rfl, rfl, rfl⟩) fun y w' ph ⟨h1, h2, h3⟩ => ?_
    subst h1 h2 h3
    simp only
    by_cases h4 : (ps.map Prod.snd).length = 4
    · rw [if_pos h4]; exact .err (by simp)
    rw [if_neg h4]
    refine .bind (tame_draw (by simp) hm 16) fun salt w ph ⟨hsalt, hm, hph⟩ => ?_
    subst hph
    refine .bind (tame_draw (by simp) hm _) fun nonce w ph ⟨hnonce, hm, hph⟩ => ?_
    subst hph
    rw [getNonceLen_eq, Nat.zero_add] at hnonce
    rw [hl.type] at hnonce ⊢
    refine .bind (Q := fun hk w' ph => hash.hash x.C new salt = .ok hk ∧ w' = w ∧ ph = .read l) (tame_pure (by simp) hash_mapErr_returns fun y hy => ⟨?_, rfl, rfl⟩) fun hk w' ph ⟨hhk, h2, h3⟩ => ?_
    · cases hh : hash.hash x.C new salt <;> rw [hh] at hy <;> cases hy; rfl
    subst h2 h3
    have hnl : nonce.length = nonceLength x.t.algorithm .memoryMode := by rw [hnonce]; simp
    have hsl : salt.length = 16 := by rw [hsalt]; simp
    refine .bind (Q := fun ek w'' ph => encryptMasterKey x.C x.key hk nonce x.t.algorithm = .ok ek ∧ w'' = w' ∧ ph = .read l)
      (tame_pure (by simp) (encryptMasterKey_returns hx.lawful hlen ((hash_ok.1 hhk).len hx.lawful) hnl) fun y hy => ⟨hy, rfl, rfl⟩) fun ek w'' ph ⟨hek, h2, h3⟩ => ?_
    subst h2 h3
    have hseal := seals hx.lawful hlen hnl hhk hek
    have hkok := hseal.ok hx.lawful hlen hsl hnl
    have hsup := supported hseal
    have hap : ∀ pw ∈ x.U, pw ≠ new → ∀ m, ¬ Opens x.C x.t.algorithm pw _ m := fun pw hpw hne m => hx.toldApart hN hpw hne.symm (m := m) (by rw [← hsalt, ← hnonce]; exact hseal)
    have hopen := hseal.opens hx.lawful
    generalize Keyslot.mk _ _ _ _ = k at hkok hap hopen ⊢
    have hmem : old ∈ l := by rw [← hl.list, e]; simp
    have hset : ps.map Prod.snd ++ [k] = (ps ++ [(new, k)]).map Prod.snd := by simp
    rw [hset]
    have hsub : ∀ q, q ∈ ps ++ [(new, k)] → q = (new, k) ∨ q ∈ ps := fun q hq => by
      rw [List.mem_append, List.mem_singleton] at hq; exact hq.symm
    rw [List.length_map] at h4
    have h5 := hl.len
    refine (tame_store (by rw [hc]; exact id) hm hl (ps' := ps ++ [(new, k)]) ?_ ?_ ?_ ?_ ?_).imp fun _ _ _ h => .inl h
    · rw [hc]
      have : l.length ≠ 4 := by rw [← hl.list, List.length_map]; exact h4
      simp only [KeyCmd.onList, if_neg (not_not_intro hmem), if_neg (not_not_intro hsup), if_neg this]
      rw [← hl.list]; simp
    · simp; omega
    · intro q hq
      rcases hsub q hq with rfl | hq
      · exact hkok
      · exact hl.ok q hq
    · intro pw' hpw'
      obtain ⟨q, hq, rfl⟩ := List.mem_map.1 hpw'
      rcases hsub q hq with rfl | hq
      · exact hN
      · exact hl.sub _ (by rw [← hl.list]; exact List.mem_map.2 ⟨q, hq, rfl⟩)
    · intro q hq
      rcases hsub q hq with rfl | hq
      · exact ⟨hopen, hap⟩
      · exact hl.apart q hq

/-- Every call. -/
theorem tame_call (hx : x.Ready) (hm : Mine x w 0 0) : Tame x (Outcome x) (x.cmd.steps x.C x.h) w .fresh := by
  cases hc : x.cmd with
  | add old new hash => exact tame_add hc hx hm
  | change old new hash => exact tame_change hc hx hm
  | delete pw => exact tame_delete hc hx hm
  | verify pw => exact tame_verify hc hx hm

end Volaris.ConcKeys
