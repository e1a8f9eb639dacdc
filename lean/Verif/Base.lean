/-!
# The machine the modelled code runs on

Nothing in this file models a particular function of /repo; it models what the Rust code is
written against: byte vectors, `Result`, panics, files, handles, system calls and `std::io`
loops.  See DESIGN.md section 2.
-/

namespace Volaris

abbrev Bytes := List UInt8

/-- Ways in which a Rust function does not return: a panic, `std::process::exit`, or (for loops that
the model bounds by fuel) not terminating within the fuel. -/
inductive Abort where
  | panic
  | exit (code : Int)
  | outOfFuel
deriving DecidableEq, Repr

/-- `Result<α, ε>` together with the ways of not returning. -/
inductive Res (ε α : Type) where
  | ok (a : α)
  | err (e : ε)
  | abort (a : Abort)
deriving DecidableEq, Repr

namespace Res
variable {ε ε' α β : Type}

def isOk : Res ε α → Bool
  | ok _ => true
  | _ => false

def isAbort : Res ε α → Bool
  | abort _ => true
  | _ => false

/-- `Result::map_err`. -/
def mapErr (f : ε → ε') : Res ε α → Res ε' α
  | ok a => ok a
  | err e => err (f e)
  | abort a => abort a

/-- The `?` operator. -/
def bind (x : Res ε α) (f : α → Res ε β) : Res ε β :=
  match x with
  | ok a => f a
  | err e => err e
  | abort a => abort a

/-- `Option::ok_or`. -/
def ofOption (e : ε) : Option α → Res ε α
  | some a => ok a
  | none => err e

instance : Monad (Res ε) where
  pure := ok
  bind := bind

end Res

/-- What a system call does when it is made.  `full`: everything requested that is possible;
`short k`: at most `k` bytes are transferred (reads transfer at least one byte if any is left and was asked for,
as `Ok(0)` means end of file); `intr`: `ErrorKind::Interrupted`, nothing transferred;
`fail`: any other I/O error, nothing transferred. -/
inductive Io where
  | full
  | short (k : Nat)
  | intr
  | fail
deriving DecidableEq, Repr

/-- `std::io::ErrorKind`, as far as the code distinguishes kinds. -/
inductive IoErr where
  | interrupted
  | unexpectedEof
  | writeZero
  | invalidInput
  | notFound
  | alreadyExists
  | other
deriving DecidableEq, Repr

/-- An open file handle: which file it refers to and its position. -/
structure Fd where
  ino : Nat
  pos : Nat
deriving DecidableEq, Repr

/-- One component of a path. -/
abbrev Name := List Char

/-- An absolute, resolved path. -/
abbrev Path := List Name

inductive Node where
  | file (ino : Nat)
  | dir
deriving DecidableEq, Repr

/-- Ghost record of the modifying system calls, oldest last. -/
inductive Ev where
  | write (ino off : Nat) (bs : Bytes)
  | truncate (ino : Nat)
  | create (p : Path)
  | mkdir (p : Path)
  | unlink (p : Path)
deriving DecidableEq, Repr

/-- Ghost record of something printed: how many modifying system calls had been made and how many lines of standard input were unread and how many passwords had not been typed then, and the text, without its line break. -/
structure Printed where
  calls : Nat
  unread : Nat
  untyped : Nat
  text : List Char
deriving DecidableEq, Repr

/-- The state the code acts on.  `file` maps inode numbers to contents, `dir` is the directory
tree as an association list (the root `[]` is implicit), `fd` the open handles, `sched` the outcome of the coming system calls (empty: all `full`), `rng` the
random tape, `stdin`/`tty` the lines a user will type at prompts and at hidden password prompts,
`env` the `VOLARIS_KEY` variable, `out` what was printed, newest first. -/
structure World where
  file : Nat → Bytes
  fd : Nat → Fd
  nextIno : Nat
  nextFd : Nat
  dir : List (Path × Node)
  sched : List Io
  rng : Nat → UInt8
  stdin : List String
  tty : List Bytes
  env : Option Bytes
  log : List Ev
  out : List Printed := []

/-- A program: runs in a world, returns a result and the world after. -/
def Prog (ε α : Type) := World → Res ε α × World

namespace Prog
variable {ε ε' α β : Type}

@[inline] def pure (a : α) : Prog ε α := fun w => (.ok a, w)

/-- Sequencing with `?`. -/
@[inline] def bind (x : Prog ε α) (f : α → Prog ε β) : Prog ε β := fun w =>
  match x w with
  | (.ok a, w') => f a w'
  | (.err e, w') => (.err e, w')
  | (.abort a, w') => (.abort a, w')

instance : Monad (Prog ε) where
  pure := Prog.pure
  bind := Prog.bind

def throw (e : ε) : Prog ε α := fun w => (.err e, w)

def panic : Prog ε α := fun w => (.abort .panic, w)

def lift (r : Res ε α) : Prog ε α := fun w => (r, w)

def mapErr (f : ε → ε') (x : Prog ε α) : Prog ε' α := fun w =>
  match x w with
  | (.ok a, w') => (.ok a, w')
  | (.err e, w') => (.err (f e), w')
  | (.abort a, w') => (.abort a, w')

/-- Run and keep the `Result` as a value (a call without `?`). -/
def attempt (x : Prog ε α) : Prog ε' (Res ε α) := fun w =>
  match x w with
  | (.ok a, w') => (.ok (.ok a), w')
  | (.err e, w') => (.ok (.err e), w')
  | (.abort a, w') => (.abort a, w')

end Prog

/-! ## Byte-vector files -/

/-- Content after writing `bs` at `pos`: bytes before stay, a gap is filled with zeros, bytes after stay.
Writing nothing changes nothing. -/
def writeAt (d : Bytes) (pos : Nat) (bs : Bytes) : Bytes :=
  if bs = [] then d
  else d.take pos ++ List.replicate (pos - d.length) 0 ++ bs ++ d.drop (pos + bs.length)

namespace World

def pop (w : World) : Io × World :=
  match w.sched with
  | [] => (.full, w)
  | o :: s => (o, { w with sched := s })

def setPos (w : World) (h p : Nat) : World :=
  { w with fd := fun i => if i = h then { w.fd h with pos := p } else w.fd i }

/-- Content of the file a handle refers to. -/
def data (w : World) (h : Nat) : Bytes := w.file (w.fd h).ino

/-- The bytes from a handle's position to the end. -/
def rest (w : World) (h : Nat) : Bytes := (w.data h).drop (w.fd h).pos

/-- Effect of transferring `bs` through a handle. -/
def put (w : World) (h : Nat) (bs : Bytes) : World :=
  { w with
    file := fun i => if i = (w.fd h).ino then writeAt (w.file i) (w.fd h).pos bs else w.file i
    fd := fun i => if i = h then { w.fd h with pos := (w.fd h).pos + bs.length } else w.fd i
    log := .write (w.fd h).ino (w.fd h).pos bs :: w.log }

/-- Effect of having read `n` bytes. -/
def adv (w : World) (h n : Nat) : World := w.setPos h ((w.fd h).pos + n)

end World

/-! ## System calls -/

/-- `Read::read` with a buffer of `n` bytes. -/
def read (h n : Nat) : Prog IoErr Bytes := fun w =>
  match w.pop with
  | (.full, w) => (.ok ((w.rest h).take n), w.adv h ((w.rest h).take n).length)
  | (.short k, w) =>
      let b := (w.rest h).take (min n (max 1 k))
      (.ok b, w.adv h b.length)
  | (.intr, w) => (.err .interrupted, w)
  | (.fail, w) => (.err .other, w)

/-- `Write::write`; returns the number of bytes accepted. -/
def write (h : Nat) (bs : Bytes) : Prog IoErr Nat := fun w =>
  match w.pop with
  | (.full, w) => (.ok bs.length, w.put h bs)
  | (.short k, w) => (.ok (bs.take k).length, w.put h (bs.take k))
  | (.intr, w) => (.err .interrupted, w)
  | (.fail, w) => (.err .other, w)

/-- `Seek::seek(SeekFrom::Start(p))`. -/
def seekStart (h p : Nat) : Prog IoErr Unit := fun w =>
  match w.pop with
  | (.full, w) => (.ok (), w.setPos h p)
  | (.short _, w) => (.ok (), w.setPos h p)
  | (.intr, w) => (.err .interrupted, w)
  | (.fail, w) => (.err .other, w)

/-- `Seek::seek(SeekFrom::Current(d))`; a negative target is an error. -/
def seekCur (h : Nat) (d : Int) : Prog IoErr Unit := fun w =>
  match w.pop with
  | (.full, w) | (.short _, w) =>
      if ((w.fd h).pos : Int) + d < 0 then (.err .invalidInput, w)
      else (.ok (), w.setPos h (((w.fd h).pos : Int) + d).toNat)
  | (.intr, w) => (.err .interrupted, w)
  | (.fail, w) => (.err .other, w)

/-- `Seek::rewind`. -/
def rewind (h : Nat) : Prog IoErr Unit := seekStart h 0

/-- `Write::flush`. -/
def flush (_h : Nat) : Prog IoErr Unit := fun w =>
  match w.pop with
  | (.full, w) => (.ok (), w)
  | (.short _, w) => (.ok (), w)
  | (.intr, w) => (.err .interrupted, w)
  | (.fail, w) => (.err .other, w)

/-! ## `std::io` loops -/

/-- The loop of `Read::read_exact` (`default_read_exact`): read until `n` bytes are there or end of
file, retrying interrupted calls.  Returns the bytes obtained; fewer than `n` means end of file.
The first argument is the schedule, consumed as the loop runs. -/
def readLoop (h : Nat) : List Io → Nat → Bytes → World → Res IoErr Bytes × World
  | [], n, acc, w =>
      let b := (w.rest h).take n
      (.ok (acc ++ b), { w.adv h b.length with sched := [] })
  | o :: s, n, acc, w =>
      if n = 0 then (.ok acc, { w with sched := o :: s })
      else
        match o with
        | .full =>
            let b := (w.rest h).take n
            if b = [] then (.ok acc, { w with sched := s })
            else readLoop h s (n - b.length) (acc ++ b) (w.adv h b.length)
        | .short k =>
            let b := (w.rest h).take (min n (max 1 k))
            if b = [] then (.ok acc, { w with sched := s })
            else readLoop h s (n - b.length) (acc ++ b) (w.adv h b.length)
        | .intr => readLoop h s n acc w
        | .fail => (.err .other, { w with sched := s })

/-- Read up to `n` bytes, looping; see `readLoop`. -/
def readUpTo (h n : Nat) : Prog IoErr Bytes := fun w => readLoop h w.sched n [] w

/-- `Read::read_exact`. -/
def readExact (h n : Nat) : Prog IoErr Bytes := do
  let b ← readUpTo h n
  if b.length = n then pure b else Prog.throw .unexpectedEof

/-- `Read::read_to_end`: reads until a read returns zero bytes. -/
def readToEnd (h : Nat) : Prog IoErr Bytes := fun w =>
  readUpTo h ((w.rest h).length + 1) w

/-- The loop of `Write::write_all`. -/
def writeLoop (h : Nat) : List Io → Bytes → World → Res IoErr Unit × World
  | [], bs, w => if bs = [] then (.ok (), { w with sched := [] }) else (.ok (), { w.put h bs with sched := [] })
  | o :: s, bs, w =>
      if bs = [] then (.ok (), { w with sched := o :: s })
      else
        match o with
        | .full => (.ok (), { w.put h bs with sched := s })
        | .short k =>
            if k = 0 then (.err .writeZero, { w with sched := s })
            else writeLoop h s (bs.drop k) (w.put h (bs.take k))
        | .intr => writeLoop h s bs w
        | .fail => (.err .other, { w with sched := s })

/-- `Write::write_all`. -/
def writeAll (h : Nat) (bs : Bytes) : Prog IoErr Unit := fun w => writeLoop h w.sched bs w

/-! ## Randomness -/

/-- `fill_bytes` on an `n`-byte buffer: takes the next `n` bytes of the random tape. -/
def genBytes {ε : Type} (n : Nat) : Prog ε Bytes := fun w =>
  (.ok ((List.range n).map w.rng), { w with rng := fun i => w.rng (i + n) })

end Volaris
