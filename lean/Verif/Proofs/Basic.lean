import Verif.Base
/-! Helper lemmas: running programs, files, fault-free runs. -/
namespace Volaris

namespace Prog
variable {ε ε' α β : Type}

@[simp] theorem pure_run (a : α) (w : World) : (Pure.pure a : Prog ε α) w = (.ok a, w) := rfl

theorem bind_run (x : Prog ε α) (f : α → Prog ε β) (w : World) :
    (x >>= f) w = match x w with
      | (.ok a, w') => f a w'
      | (.err e, w') => (.err e, w')
      | (.abort a, w') => (.abort a, w') := rfl

theorem bind_ok {x : Prog ε α} {f : α → Prog ε β} {w w' : World} {a : α} (h : x w = (.ok a, w')) :
    (x >>= f) w = f a w' := by rw [bind_run, h]

theorem bind_err {x : Prog ε α} {f : α → Prog ε β} {w w' : World} {e : ε} (h : x w = (.err e, w')) :
    (x >>= f) w = (.err e, w') := by rw [bind_run, h]

theorem bind_abort {x : Prog ε α} {f : α → Prog ε β} {w w' : World} {e : Abort}
    (h : x w = (.abort e, w')) : (x >>= f) w = (.abort e, w') := by rw [bind_run, h]

theorem mapErr_run (f : ε → ε') (x : Prog ε α) (w : World) :
    (mapErr f x) w = match x w with
      | (.ok a, w') => (.ok a, w')
      | (.err e, w') => (.err (f e), w')
      | (.abort a, w') => (.abort a, w') := rfl

theorem mapErr_eq (f : ε → ε') (x : Prog ε α) (w : World) :
    (mapErr f x) w = ((x w).1.mapErr f, (x w).2) := by
  rw [mapErr_run]; rcases x w with ⟨_ | _ | _, _⟩ <;> rfl

@[simp] theorem lift_run (r : Res ε α) (w : World) : lift r w = (r, w) := rfl
@[simp] theorem throw_run (e : ε) (w : World) : (throw e : Prog ε α) w = (.err e, w) := rfl
@[simp] theorem panic_run (w : World) : (panic : Prog ε α) w = (.abort .panic, w) := rfl

theorem mapErr_ok {f : ε → ε'} {x : Prog ε α} {w w' : World} {a : α} (h : x w = (.ok a, w')) :
    (mapErr f x) w = (.ok a, w') := by rw [mapErr_run, h]

theorem mapErr_err {f : ε → ε'} {x : Prog ε α} {w w' : World} {e : ε} (h : x w = (.err e, w')) :
    (mapErr f x) w = (.err (f e), w') := by rw [mapErr_run, h]

end Prog

namespace Res
variable {ε ε' α β : Type}
@[simp] theorem bind_ok (a : α) (f : α → Res ε β) : ((.ok a : Res ε α) >>= f) = f a := rfl
@[simp] theorem bind_err (e : ε) (f : α → Res ε β) : ((.err e : Res ε α) >>= f) = .err e := rfl
@[simp] theorem bind_abort (e : Abort) (f : α → Res ε β) : ((.abort e : Res ε α) >>= f) = .abort e := rfl
@[simp] theorem pure_eq (a : α) : (Pure.pure a : Res ε α) = .ok a := rfl
@[simp] theorem mapErr_ok (f : ε → ε') (a : α) : (Res.ok a : Res ε α).mapErr f = .ok a := rfl
@[simp] theorem mapErr_err (f : ε → ε') (e : ε) : (Res.err e : Res ε α).mapErr f = .err (f e) := rfl
@[simp] theorem mapErr_abort (f : ε → ε') (e : Abort) : (Res.abort e : Res ε α).mapErr f = .abort e := rfl
@[simp] theorem ofOption_some (e : ε) (a : α) : Res.ofOption e (some a) = .ok a := rfl
@[simp] theorem ofOption_none (e : ε) : Res.ofOption e (none : Option α) = .err e := rfl

theorem bind_eq_ok {x : Res ε α} {f : α → Res ε β} {b : β} :
    (x >>= f) = .ok b ↔ ∃ a, x = .ok a ∧ f a = .ok b := by
  cases x <;> simp

theorem mapErr_eq_ok {x : Res ε α} {f : ε → ε'} {a : α} : x.mapErr f = .ok a ↔ x = .ok a := by
  cases x <;> simp

theorem ofOption_eq_ok {e : ε} {x : Option α} {a : α} : Res.ofOption e x = .ok a ↔ x = some a := by
  cases x <;> simp
end Res

/-! ### Files as byte vectors -/

@[simp] theorem writeAt_nil (d : Bytes) (p : Nat) : writeAt d p [] = d := by simp [writeAt]

theorem writeAt_zero (d bs : Bytes) : writeAt d 0 bs = bs ++ d.drop bs.length := by
  unfold writeAt; split <;> simp_all

theorem writeAt_end (d bs : Bytes) : writeAt d d.length bs = d ++ bs := by
  unfold writeAt; split <;> simp_all

theorem writeAt_length (d : Bytes) (p : Nat) (bs : Bytes) :
    (writeAt d p bs).length = if bs = [] then d.length else max d.length (p + bs.length) := by
  unfold writeAt
  split
  · rfl
  · simp only [List.length_append, List.length_take, List.length_replicate, List.length_drop]
    omega

theorem writeAt_get? (d : Bytes) (p : Nat) (bs : Bytes) (i : Nat) :
    (writeAt d p bs)[i]? =
      if bs = [] then d[i]? else
      if i < p then (if i < d.length then d[i]? else some 0)
      else if i < p + bs.length then bs[i - p]? else d[i]? := by
  unfold writeAt
  split
  · rfl
  · simp only [List.getElem?_append, List.getElem?_take, List.getElem?_drop,
      List.getElem?_replicate, List.length_append, List.length_take, List.length_replicate]
    by_cases h1 : i < p <;> by_cases h2 : i < d.length <;> by_cases h3 : i < p + bs.length
    all_goals simp only [h1, h2, h3, if_true, if_false]
    all_goals repeat' split
    all_goals first
      | rfl
      | (exfalso; omega)
      | (congr 1; omega)

theorem writeAt_append (d : Bytes) (p : Nat) (a b : Bytes) :
    writeAt (writeAt d p a) (p + a.length) b = writeAt d p (a ++ b) := by
  by_cases ha : a = []
  · simp [ha]
  by_cases hb : b = []
  · simp [hb]
  apply List.ext_getElem?
  intro i
  have hl := writeAt_length d p a
  simp only [ha, if_false] at hl
  have ha' : 0 < a.length := List.length_pos_iff.mpr ha
  have hab : a ++ b ≠ [] := by simp [ha]
  simp only [writeAt_get?, hb, ha, hab, if_false, hl, List.length_append, List.getElem?_append]
  repeat' split
  all_goals first
    | rfl
    | (exfalso; omega)
    | (congr 1; omega)

theorem writeAt_within (d : Bytes) (p : Nat) (bs : Bytes) (h : p ≤ d.length) :
    writeAt d p bs = d.take p ++ bs ++ d.drop (p + bs.length) := by
  unfold writeAt
  have : p - d.length = 0 := by omega
  split
  · next hb => simp [hb]
  · simp [this]

/-! ### World projections -/
namespace World

/-- Everything but the schedule and the ghost log. -/
def core (w : World) : World := { w with sched := [], log := [] }

@[simp] theorem core_file (w : World) : w.core.file = w.file := rfl
@[simp] theorem core_fd (w : World) : w.core.fd = w.fd := rfl
@[simp] theorem core_dir (w : World) : w.core.dir = w.dir := rfl
@[simp] theorem core_rng (w : World) : w.core.rng = w.rng := rfl
@[simp] theorem core_core (w : World) : w.core.core = w.core := rfl
@[simp] theorem core_with_sched (w : World) (s : List Io) : ({ w with sched := s } : World).core = w.core := rfl

theorem file_of_core {w w' : World} (h : w.core = w'.core) : w.file = w'.file := by
  have := congrArg file h; exact this
theorem fd_of_core {w w' : World} (h : w.core = w'.core) : w.fd = w'.fd := by
  have := congrArg fd h; exact this
theorem dir_of_core {w w' : World} (h : w.core = w'.core) : w.dir = w'.dir := by
  have := congrArg dir h; exact this
theorem rng_of_core {w w' : World} (h : w.core = w'.core) : w.rng = w'.rng := by
  have := congrArg rng h; exact this
theorem nextIno_of_core {w w' : World} (h : w.core = w'.core) : w.nextIno = w'.nextIno := by
  have := congrArg nextIno h; exact this
theorem nextFd_of_core {w w' : World} (h : w.core = w'.core) : w.nextFd = w'.nextFd := by
  have := congrArg nextFd h; exact this
theorem stdin_of_core {w w' : World} (h : w.core = w'.core) : w.stdin = w'.stdin := by
  have := congrArg stdin h; exact this
theorem tty_of_core {w w' : World} (h : w.core = w'.core) : w.tty = w'.tty := by
  have := congrArg tty h; exact this
theorem env_of_core {w w' : World} (h : w.core = w'.core) : w.env = w'.env := by
  have := congrArg env h; exact this
theorem out_of_core {w w' : World} (h : w.core = w'.core) : w.out = w'.out := by
  have := congrArg out h; exact this

theorem core_ext {w w' : World} (h1 : w.file = w'.file) (h2 : w.fd = w'.fd) (h3 : w.dir = w'.dir)
    (h4 : w.rng = w'.rng) (h5 : w.nextIno = w'.nextIno) (h6 : w.nextFd = w'.nextFd)
    (h7 : w.stdin = w'.stdin) (h8 : w.tty = w'.tty) (h9 : w.env = w'.env) (h10 : w.out = w'.out) : w.core = w'.core := by
  cases w; cases w'; simp_all [core]

theorem setPos_core (w : World) (h p : Nat) : (w.setPos h p).core = w.core.setPos h p := rfl
theorem put_core_congr {w w' : World} (h : Nat) (bs : Bytes) (e : w.core = w'.core) :
    (w.put h bs).core = (w'.put h bs).core := by
  have h1 := file_of_core e
  have h2 := fd_of_core e
  apply core_ext
  · simp only [put, h1, h2]
  · simp only [put, h2]
  · exact dir_of_core (w := w) (w' := w') e
  · exact rng_of_core (w := w) (w' := w') e
  · exact nextIno_of_core (w := w) (w' := w') e
  · exact nextFd_of_core (w := w) (w' := w') e
  · exact stdin_of_core (w := w) (w' := w') e
  · exact tty_of_core (w := w) (w' := w') e
  · exact env_of_core (w := w) (w' := w') e
  · exact out_of_core (w := w) (w' := w') e
theorem setPos_core_congr {w w' : World} (h p : Nat) (e : w.core = w'.core) :
    (w.setPos h p).core = (w'.setPos h p).core := by
  rw [setPos_core, setPos_core, e]
theorem adv_core_congr {w w' : World} (h n : Nat) (e : w.core = w'.core) :
    (w.adv h n).core = (w'.adv h n).core := by
  unfold adv; rw [fd_of_core e]; exact setPos_core_congr _ _ e

@[simp] theorem pop_core (w : World) : w.pop.2.core = w.core := by
  unfold pop; split <;> rfl

@[simp] theorem setPos_file (w : World) (h p : Nat) : (w.setPos h p).file = w.file := rfl
@[simp] theorem setPos_dir (w : World) (h p : Nat) : (w.setPos h p).dir = w.dir := rfl
@[simp] theorem setPos_sched (w : World) (h p : Nat) : (w.setPos h p).sched = w.sched := rfl
@[simp] theorem setPos_rng (w : World) (h p : Nat) : (w.setPos h p).rng = w.rng := rfl
@[simp] theorem setPos_log (w : World) (h p : Nat) : (w.setPos h p).log = w.log := rfl
@[simp] theorem setPos_nextIno (w : World) (h p : Nat) : (w.setPos h p).nextIno = w.nextIno := rfl
@[simp] theorem setPos_nextFd (w : World) (h p : Nat) : (w.setPos h p).nextFd = w.nextFd := rfl
@[simp] theorem setPos_stdin (w : World) (h p : Nat) : (w.setPos h p).stdin = w.stdin := rfl
@[simp] theorem setPos_tty (w : World) (h p : Nat) : (w.setPos h p).tty = w.tty := rfl
@[simp] theorem setPos_env (w : World) (h p : Nat) : (w.setPos h p).env = w.env := rfl
@[simp] theorem setPos_fd_same (w : World) (h p : Nat) :
    (w.setPos h p).fd h = { ino := (w.fd h).ino, pos := p } := by simp [setPos]
theorem setPos_fd_ne (w : World) {h i : Nat} (p : Nat) (hne : i ≠ h) :
    (w.setPos h p).fd i = w.fd i := by simp [setPos, hne]
@[simp] theorem setPos_ino (w : World) (h p i : Nat) : ((w.setPos h p).fd i).ino = (w.fd i).ino := by
  by_cases hi : i = h
  · subst hi; simp
  · rw [setPos_fd_ne _ _ hi]

@[simp] theorem setPos_setPos (w : World) (h p q : Nat) : (w.setPos h p).setPos h q = w.setPos h q := by
  simp only [setPos]
  congr 1
  funext i
  by_cases hi : i = h <;> simp [hi]

theorem setPos_self (w : World) (h : Nat) : w.setPos h (w.fd h).pos = w := by
  cases w
  simp only [setPos]
  congr 1
  funext i
  by_cases hi : i = h <;> simp [hi]

@[simp] theorem put_dir (w : World) (h : Nat) (bs : Bytes) : (w.put h bs).dir = w.dir := rfl
@[simp] theorem put_sched (w : World) (h : Nat) (bs : Bytes) : (w.put h bs).sched = w.sched := rfl
@[simp] theorem put_rng (w : World) (h : Nat) (bs : Bytes) : (w.put h bs).rng = w.rng := rfl
@[simp] theorem put_nextIno (w : World) (h : Nat) (bs : Bytes) : (w.put h bs).nextIno = w.nextIno := rfl
@[simp] theorem put_nextFd (w : World) (h : Nat) (bs : Bytes) : (w.put h bs).nextFd = w.nextFd := rfl
@[simp] theorem put_stdin (w : World) (h : Nat) (bs : Bytes) : (w.put h bs).stdin = w.stdin := rfl
@[simp] theorem put_tty (w : World) (h : Nat) (bs : Bytes) : (w.put h bs).tty = w.tty := rfl
@[simp] theorem put_env (w : World) (h : Nat) (bs : Bytes) : (w.put h bs).env = w.env := rfl
@[simp] theorem put_fd_same (w : World) (h : Nat) (bs : Bytes) :
    (w.put h bs).fd h = { ino := (w.fd h).ino, pos := (w.fd h).pos + bs.length } := by simp [put]
theorem put_fd_ne (w : World) {h i : Nat} (bs : Bytes) (hne : i ≠ h) :
    (w.put h bs).fd i = w.fd i := by simp [put, hne]
@[simp] theorem put_ino (w : World) (h i : Nat) (bs : Bytes) : ((w.put h bs).fd i).ino = (w.fd i).ino := by
  by_cases hi : i = h
  · subst hi; simp
  · rw [put_fd_ne _ _ hi]
theorem put_file_same (w : World) (h : Nat) (bs : Bytes) :
    (w.put h bs).file (w.fd h).ino = writeAt (w.file (w.fd h).ino) (w.fd h).pos bs := by simp [put]
theorem put_file_ne (w : World) {h i : Nat} (bs : Bytes) (hne : i ≠ (w.fd h).ino) :
    (w.put h bs).file i = w.file i := by simp [put, hne]

@[simp] theorem adv_file (w : World) (h n : Nat) : (w.adv h n).file = w.file := rfl
@[simp] theorem adv_dir (w : World) (h n : Nat) : (w.adv h n).dir = w.dir := rfl
@[simp] theorem adv_sched (w : World) (h n : Nat) : (w.adv h n).sched = w.sched := rfl
@[simp] theorem adv_rng (w : World) (h n : Nat) : (w.adv h n).rng = w.rng := rfl
@[simp] theorem adv_log (w : World) (h n : Nat) : (w.adv h n).log = w.log := rfl
@[simp] theorem adv_fd_same (w : World) (h n : Nat) :
    (w.adv h n).fd h = { ino := (w.fd h).ino, pos := (w.fd h).pos + n } := by simp [adv]
theorem adv_fd_ne (w : World) {h i : Nat} (n : Nat) (hne : i ≠ h) : (w.adv h n).fd i = w.fd i := by
  simp [adv, setPos_fd_ne _ _ hne]
@[simp] theorem adv_ino (w : World) (h n i : Nat) : ((w.adv h n).fd i).ino = (w.fd i).ino := by simp [adv]

theorem with_sched_nil (w : World) (h : w.sched = []) : { w with sched := [] } = w := by
  cases w; simp_all

theorem pop_nil {w : World} (h : w.sched = []) : w.pop = (.full, w) := by simp [pop, h]

end World

/-! ### Fault-free runs (empty schedule: every call is `full`) -/

theorem read_nil {w : World} (hs : w.sched = []) (h n : Nat) :
    read h n w = (.ok ((w.rest h).take n), w.adv h ((w.rest h).take n).length) := by
  simp [read, World.pop_nil hs]

theorem write_nil {w : World} (hs : w.sched = []) (h : Nat) (bs : Bytes) :
    write h bs w = (.ok bs.length, w.put h bs) := by
  simp [write, World.pop_nil hs]

theorem seekStart_nil {w : World} (hs : w.sched = []) (h p : Nat) :
    seekStart h p w = (.ok (), w.setPos h p) := by
  simp [seekStart, World.pop_nil hs]

theorem rewind_nil {w : World} (hs : w.sched = []) (h : Nat) :
    rewind h w = (.ok (), w.setPos h 0) := seekStart_nil hs h 0

theorem seekCur_nil {w : World} (hs : w.sched = []) (h : Nat) (d : Int) :
    seekCur h d w = if ((w.fd h).pos : Int) + d < 0 then (.err .invalidInput, w)
      else (.ok (), w.setPos h (((w.fd h).pos : Int) + d).toNat) := by
  simp [seekCur, World.pop_nil hs]

theorem flush_nil {w : World} (hs : w.sched = []) (h : Nat) : flush h w = (.ok (), w) := by
  simp [flush, World.pop_nil hs]

theorem readUpTo_nil {w : World} (hs : w.sched = []) (h n : Nat) :
    readUpTo h n w = (.ok ((w.rest h).take n), w.adv h ((w.rest h).take n).length) := by
  simp only [readUpTo, hs, readLoop, List.nil_append]
  rw [World.with_sched_nil _ (by simp [hs])]

theorem readExact_nil {w : World} (hs : w.sched = []) (h n : Nat) :
    readExact h n w =
      (if n ≤ (w.rest h).length then .ok ((w.rest h).take n) else .err .unexpectedEof,
       w.adv h ((w.rest h).take n).length) := by
  simp only [readExact, Prog.bind_run, readUpTo_nil hs]
  by_cases hn : n ≤ (w.rest h).length
  · simp [hn, Nat.min_eq_left hn]
  · have : min n (w.rest h).length ≠ n := by omega
    simp [hn, this]

theorem readToEnd_nil {w : World} (hs : w.sched = []) (h : Nat) :
    readToEnd h w = (.ok (w.rest h), w.adv h (w.rest h).length) := by
  simp only [readToEnd, readUpTo_nil hs]
  rw [List.take_of_length_le (by omega)]

theorem writeAll_nil {w : World} (hs : w.sched = []) (h : Nat) {bs : Bytes} (hb : bs ≠ []) :
    writeAll h bs w = (.ok (), w.put h bs) := by
  simp only [writeAll, hs, writeLoop, hb, if_false]
  rw [World.with_sched_nil _ (by simp [hs])]

theorem writeAll_empty (w : World) (h : Nat) : writeAll h [] w = (.ok (), w) := by
  cases w with | mk _ _ _ _ _ s => cases s <;> simp [writeAll, writeLoop]

/-! ### Runs under an arbitrary schedule -/

theorem World.rest_of_core {w w' : World} (h : w.core = w'.core) (i : Nat) : w.rest i = w'.rest i := by
  simp [World.rest, World.data, World.file_of_core h, World.fd_of_core h]

theorem World.data_of_core {w w' : World} (h : w.core = w'.core) (i : Nat) : w.data i = w'.data i := by
  simp [World.data, World.file_of_core h, World.fd_of_core h]

theorem World.rest_adv (w : World) (h n : Nat) : (w.adv h n).rest h = (w.rest h).drop n := by
  simp [World.rest, World.data, List.drop_drop]

theorem World.adv_adv (w : World) (h m n : Nat) : (w.adv h m).adv h n = w.adv h (m + n) := by
  simp [World.adv, Nat.add_assoc]

@[simp] theorem World.adv_zero (w : World) (h : Nat) : w.adv h 0 = w := by
  simp [World.adv, World.setPos_self]

theorem World.put_put_core (w : World) (h : Nat) (a b : Bytes) :
    ((w.put h a).put h b).core = (w.put h (a ++ b)).core := by
  apply World.core_ext <;> try rfl
  · funext i
    by_cases hi : i = (w.fd h).ino
    · subst hi
      rw [World.put_file_same]
      have := World.put_file_same (w.put h a) h b
      simp only [World.put_fd_same] at this
      rw [this, World.put_file_same, writeAt_append]
    · rw [World.put_file_ne _ _ (by simpa using hi), World.put_file_ne _ _ hi, World.put_file_ne _ _ hi]
  · funext i
    by_cases hi : i = h
    · subst hi; simp [Nat.add_assoc]
    · simp [World.put_fd_ne _ _ hi]

theorem World.put_nil_core (w : World) (h : Nat) : (w.put h []).core = w.core := by
  apply World.core_ext <;> try rfl
  · funext i; simp [World.put]
  · funext i; by_cases hi : i = h
    · subst hi; simp
    · simp [World.put_fd_ne _ _ hi]

theorem readLoop_spec (h : Nat) (s : List Io) : ∀ (n : Nat) (acc : Bytes) (w : World),
    (∃ s', readLoop h s n acc w =
      (.ok (acc ++ (w.rest h).take n), { w.adv h ((w.rest h).take n).length with sched := s' })) ∨
    (∃ k s', k ≤ ((w.rest h).take n).length ∧
      readLoop h s n acc w = (.err .other, { w.adv h k with sched := s' })) := by
  induction s with
  | nil => intro n acc w; exact .inl ⟨[], rfl⟩
  | cons o s ih =>
    intro n acc w
    by_cases hn : n = 0
    · subst hn; exact .inl ⟨o :: s, by simp [readLoop]⟩
    have step : ∀ m, 0 < m → m ≤ n →
        ((∃ s', (if (w.rest h).take m = [] then (Res.ok acc, { w with sched := s })
            else readLoop h s (n - ((w.rest h).take m).length) (acc ++ (w.rest h).take m)
              (w.adv h ((w.rest h).take m).length)) =
          (.ok (acc ++ (w.rest h).take n), { w.adv h ((w.rest h).take n).length with sched := s' })) ∨
        (∃ k s', k ≤ ((w.rest h).take n).length ∧
          (if (w.rest h).take m = [] then (Res.ok acc, { w with sched := s })
            else readLoop h s (n - ((w.rest h).take m).length) (acc ++ (w.rest h).take m)
              (w.adv h ((w.rest h).take m).length)) =
            (.err IoErr.other, { w.adv h k with sched := s' }))) := by
      intro m hm hmn
      by_cases he : (w.rest h).take m = []
      · have hr : w.rest h = [] := by
          cases hrr : w.rest h with
          | nil => rfl
          | cons a t => rw [hrr] at he; cases m with
            | zero => omega
            | succ m => simp at he
        left
        refine ⟨s, ?_⟩
        simp [hr]
      · simp only [he, if_false]
        generalize hb : (w.rest h).take m = b
        have hbl : b.length ≤ n := by
          rw [← hb, List.length_take]; omega
        have hsplit : (w.rest h).take n = b ++ ((w.rest h).drop b.length).take (n - b.length) := by
          by_cases hml : m ≤ (w.rest h).length
          · have hl : b.length = m := by rw [← hb, List.length_take]; omega
            rw [hl, ← hb]
            have := List.take_add (l := w.rest h) (i := m) (j := n - m)
            rw [show m + (n - m) = n by omega] at this
            exact this
          · have hb2 : b = w.rest h := by rw [← hb]; exact List.take_of_length_le (by omega)
            rw [hb2, List.take_of_length_le (by omega), List.drop_length, List.take_nil, List.append_nil]
        rcases ih (n - b.length) (acc ++ b) (w.adv h b.length) with ⟨s', e⟩ | ⟨k, s', hk, e⟩
        · left
          refine ⟨s', ?_⟩
          rw [e, World.rest_adv, hsplit, World.adv_adv]
          simp [List.append_assoc]
        · right
          rw [World.rest_adv] at hk
          refine ⟨b.length + k, s', ?_, ?_⟩
          · rw [hsplit, List.length_append]; omega
          · rw [e, World.adv_adv]
    cases o with
    | full => simpa [readLoop, hn] using step n (by omega) (Nat.le_refl _)
    | short k => simpa [readLoop, hn] using step (min n (max 1 k)) (by omega) (Nat.min_le_left _ _)
    | intr => simpa [readLoop, hn] using ih n acc w
    | fail => right; exact ⟨0, s, Nat.zero_le _, by simp [readLoop, hn]⟩

theorem readUpTo_spec (h n : Nat) (w : World) :
    (∃ s', readUpTo h n w =
      (.ok ((w.rest h).take n), { w.adv h ((w.rest h).take n).length with sched := s' })) ∨
    (∃ k s', k ≤ ((w.rest h).take n).length ∧
      readUpTo h n w = (.err .other, { w.adv h k with sched := s' })) := by
  have := readLoop_spec h w.sched n [] w
  simpa [readUpTo] using this

theorem writeLoop_spec (h : Nat) (s : List Io) : ∀ (bs : Bytes) (w : World),
    (∃ w', writeLoop h s bs w = (.ok (), w') ∧ w'.core = (w.put h bs).core) ∨
    (∃ e k w', k ≤ bs.length ∧ writeLoop h s bs w = (.err e, w') ∧ w'.core = (w.put h (bs.take k)).core) := by
  induction s with
  | nil =>
    intro bs w
    left
    by_cases hb : bs = []
    · subst hb; exact ⟨{ w with sched := [] }, by simp [writeLoop], (World.put_nil_core w h).symm⟩
    · exact ⟨{ w.put h bs with sched := [] }, by simp [writeLoop, hb], rfl⟩
  | cons o s ih =>
    intro bs w
    by_cases hb : bs = []
    · subst hb; left; exact ⟨{ w with sched := o :: s }, by simp [writeLoop], (World.put_nil_core w h).symm⟩
    cases o with
    | full => left; exact ⟨{ w.put h bs with sched := s }, by simp [writeLoop, hb], rfl⟩
    | short k =>
      by_cases hk : k = 0
      · right; exact ⟨.writeZero, 0, { w with sched := s }, Nat.zero_le _, by simp [writeLoop, hb, hk],
          by simp [World.put_nil_core]⟩
      · rcases ih (bs.drop k) (w.put h (bs.take k)) with ⟨w', e, hc⟩ | ⟨er, j, w', hj, e, hc⟩
        · left
          refine ⟨w', by simp [writeLoop, hb, hk, e], ?_⟩
          rw [hc, World.put_put_core, List.take_append_drop]
        · right
          refine ⟨er, (bs.take k).length + j, w', ?_, by simp [writeLoop, hb, hk, e], ?_⟩
          · simp at hj ⊢; omega
          · rw [hc, World.put_put_core]
            have : bs.take ((bs.take k).length + j) = bs.take k ++ (bs.drop k).take j := by
              rw [List.length_take]
              by_cases hkl : k ≤ bs.length
              · rw [Nat.min_eq_left hkl]; exact List.take_add
              · rw [Nat.min_eq_right (by omega), List.take_of_length_le (by omega),
                  List.take_of_length_le (l := bs) (i := k) (by omega),
                  List.drop_eq_nil_of_le (by omega)]
                simp
            rw [this]
    | intr =>
      have := ih bs w
      simpa [writeLoop, hb] using this
    | fail => right; exact ⟨.other, 0, { w with sched := s }, Nat.zero_le _, by simp [writeLoop, hb],
          by simp [World.put_nil_core]⟩

theorem writeAll_spec (h : Nat) (bs : Bytes) (w : World) :
    (∃ w', writeAll h bs w = (.ok (), w') ∧ w'.core = (w.put h bs).core) ∨
    (∃ e k w', k ≤ bs.length ∧ writeAll h bs w = (.err e, w') ∧ w'.core = (w.put h (bs.take k)).core) :=
  writeLoop_spec h w.sched bs w

theorem seekStart_spec (h p : Nat) (w : World) :
    (∃ w', seekStart h p w = (.ok (), w') ∧ w'.core = (w.setPos h p).core) ∨
    (∃ e w', seekStart h p w = (.err e, w') ∧ w'.core = w.core) := by
  unfold seekStart
  rcases hp : w.pop with ⟨o, w1⟩
  have hc : w1.core = w.core := by rw [← World.pop_core w, hp]
  cases o
  · left; exact ⟨_, rfl, World.setPos_core_congr _ _ hc⟩
  · left; exact ⟨_, rfl, World.setPos_core_congr _ _ hc⟩
  · right; exact ⟨_, _, rfl, hc⟩
  · right; exact ⟨_, _, rfl, hc⟩

theorem rewind_spec (h : Nat) (w : World) :
    (∃ w', rewind h w = (.ok (), w') ∧ w'.core = (w.setPos h 0).core) ∨
    (∃ e w', rewind h w = (.err e, w') ∧ w'.core = w.core) := seekStart_spec h 0 w

theorem seekCur_spec (h : Nat) (d : Int) (w : World) :
    (∃ w', seekCur h d w = (.ok (), w') ∧ 0 ≤ ((w.fd h).pos : Int) + d ∧
      w'.core = (w.setPos h (((w.fd h).pos : Int) + d).toNat).core) ∨
    (∃ e w', seekCur h d w = (.err e, w') ∧ w'.core = w.core) := by
  unfold seekCur
  rcases hp : w.pop with ⟨o, w1⟩
  have hc : w1.core = w.core := by rw [← World.pop_core w, hp]
  have hf : w1.fd = w.fd := World.fd_of_core hc
  cases o <;> simp only [hf]
  case intr => right; exact ⟨_, _, rfl, hc⟩
  case fail => right; exact ⟨_, _, rfl, hc⟩
  all_goals
    by_cases hneg : ((w.fd h).pos : Int) + d < 0
    · right; exact ⟨_, _, by rw [if_pos hneg], hc⟩
    · left; exact ⟨_, by rw [if_neg hneg], by omega, World.setPos_core_congr _ _ hc⟩

theorem flush_spec (h : Nat) (w : World) :
    (∃ w', flush h w = (.ok (), w') ∧ w'.core = w.core) ∨
    (∃ e w', flush h w = (.err e, w') ∧ w'.core = w.core) := by
  unfold flush
  rcases hp : w.pop with ⟨o, w1⟩
  have hc : w1.core = w.core := by rw [← World.pop_core w, hp]
  cases o
  · left; exact ⟨_, rfl, hc⟩
  · left; exact ⟨_, rfl, hc⟩
  · right; exact ⟨_, _, rfl, hc⟩
  · right; exact ⟨_, _, rfl, hc⟩

theorem read_spec (h n : Nat) (w : World) :
    (∃ k w', read h n w = (.ok ((w.rest h).take k), w') ∧ k ≤ n ∧ (0 < n → 0 < k) ∧
      w'.core = (w.adv h ((w.rest h).take k).length).core) ∨
    (∃ e w', read h n w = (.err e, w') ∧ w'.core = w.core) := by
  unfold read
  rcases hp : w.pop with ⟨o, w1⟩
  have hc : w1.core = w.core := by rw [← World.pop_core w, hp]
  have hr : w1.rest h = w.rest h := World.rest_of_core hc h
  cases o <;> simp only [hr]
  · left; exact ⟨n, _, rfl, Nat.le_refl _, fun x => x, World.adv_core_congr _ _ hc⟩
  · next k => left; exact ⟨min n (max 1 k), _, rfl, Nat.min_le_left _ _, by omega, World.adv_core_congr _ _ hc⟩
  · right; exact ⟨_, _, rfl, hc⟩
  · right; exact ⟨_, _, rfl, hc⟩

theorem write_spec (h : Nat) (bs : Bytes) (w : World) :
    (∃ k w', write h bs w = (.ok (bs.take k).length, w') ∧ w'.core = (w.put h (bs.take k)).core) ∨
    (∃ e w', write h bs w = (.err e, w') ∧ w'.core = w.core) := by
  unfold write
  rcases hp : w.pop with ⟨o, w1⟩
  have hc : w1.core = w.core := by rw [← World.pop_core w, hp]
  cases o
  · left; exact ⟨bs.length, _, by rw [List.take_length], by rw [List.take_length]; exact World.put_core_congr _ _ hc⟩
  · next k => left; exact ⟨k, _, rfl, World.put_core_congr _ _ hc⟩
  · right; exact ⟨_, _, rfl, hc⟩
  · right; exact ⟨_, _, rfl, hc⟩

@[simp] theorem genBytes_run {ε : Type} (n : Nat) (w : World) :
    (genBytes n : Prog ε Bytes) w =
      (.ok ((List.range n).map w.rng), { w with rng := fun i => w.rng (i + n) }) := rfl

end Volaris
