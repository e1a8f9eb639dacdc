# Formal model of volaris in Lean 4: design

## 1. What is here

* `properties.jsonl` – the properties, in English.
* `lean/Verif/Base.lean`, `lean/Verif/Fs.lean` – the machine model: results, programs over a world of open files,
  I/O schedules; the directory tree and path resolution.
* `lean/Verif/Model/*` – the code of /repo, function by function. Every definition cites file and lines.
* `lean/Verif/Spec/*` – small specifications written without the model's helpers
  (field layouts, chunked plaintext, password lists, file-system effects, answers of a user, command lines),
  and the toy cryptography, toy archive format and small disks that the examples use.
* `lean/Verif/Proofs/*` – helper lemmas.
* `lean/Verif/Props/*` – the property theorems `C01_…`, with an `example` beside them showing that the hypotheses are
  met by a concrete case.
* `lean/Verif/Audit.lean` – `#print axioms` for every theorem named in the manifest.
* `MANIFEST.json` – property → theorem names. `seeded/LOG.jsonl` – seeded-bug experiments.

## 2. The machine model

* `Bytes = List UInt8`.
* `Res ε α = ok a | err e | abort x` where `x` is `panic`, `exit code` or `outOfFuel`. A Rust panic (`unwrap` on
  `None`, `expect`, index out of range, integer underflow, `GenericArray::from_slice` with a wrong length) is an
  explicit value, so "never panics" is a theorem and not an artefact of totalised definitions. Loops whose
  termination depends on the world carry fuel; that the fuel never runs out is proved.
* `Prog ε α = World → Res ε α × World`. `World`: `file : inode → Bytes`, `fd : handle → (inode, position)`, the
  directory `dir : List (Path × Node)`, a schedule `sched : List Io`, the random tape `rng`, the lines of standard
  input, what is typed at password prompts, the key environment variable, the lines on the screen, and a ghost log of write events.
* What is printed (`World.out`): questions, the generated passphrase, warnings, digests, the lines of `header details`, the reports of
  `unpack`, each with the number of modifying calls made, of lines unread and of passwords not yet typed at that moment. What `header details` and `hash` print is also
  the result of the run. Left out: the warnings about unusable numbers in the arguments (parameters.rs:50, 100, 104, states.rs:145), the
  fixed words before a password (written to the terminal by `rpassword`), error messages. Printing cannot fail in the model; `println!` panics if it does.
* Every system call pops one element of the schedule: `full` (the call does all it can),
  `short k` (at most `k` bytes transferred), `intr` (EINTR), `fail` (I/O error). The empty schedule means
  that all further calls are `full`. A theorem that says "for every schedule" therefore covers
  every finite pattern of short reads, short writes, interruptions and faults followed by
  normal operation; finite patterns suffice because every modelled run makes finitely many calls.
* `read_exact`, `write_all`, `read_to_end`, `io::copy` are modelled as the standard library's loops.
* Crashes. Every modifying call is written to the ghost log. A moment of a run (`Spec/Crash.lean`) is the disk after a prefix
  of these calls and a prefix of the bytes of the next one, if it is a write. `C71_complete` shows that the log accounts for
  everything a command does to the disk. `C71_faults` shows that each moment is also the end of a run in which calls fail, so
  that theorems for all schedules carry over. This is exact for a killed process. For a machine that loses power it
  assumes that the disk takes the calls in the order in which they were made; C81 drops this assumption for written data. C71–C76 are about moments; the older
  crash-point theorems about the header (C28, C56) are stated over the prefix length of the write (`Spec.torn`) or over all schedules.
* Threads (`erase_dir`, directory creation in `unpack`): each thread is a program cut into steps (storage calls); the
  scheduler is an arbitrary list of thread numbers; theorems quantify over this list.
* Processes (C96, C97, C98, C99): encrypt, decrypt, hash, erase, pack and the key and header commands are also modelled as sequences of system calls (`Model/Cli/Steps`), proved
  to be the same programs when nothing comes in between. A machine (`Spec/Concurrent`) is a disk and any number of processes, each with
  its own handles, input, random tape, schedule and screen; an arbitrary list of process numbers says who makes the next step.
  Walking through a directory is one step; removing directories (erase of a directory, pack with `--erase`) is excluded by `Fits`, and so is unpack. The threads that erase a directory or make the directories of an archive interleave as the schedule says; `remove_dir_all` is one step, and so is reading the archive's directory or one member. A system call is atomic; reading an exact number of bytes is one step.

## 3. Trusted base

1. Lean's kernel (Lean 4.33.0). No axioms of our own, no `sorry`, no `native_decide`/`bv_decide`.
   `Verif/Audit.lean` prints the axioms of each property theorem; only `propext`,
   `Classical.choice` and `Quot.sound` occur.
2. The model is a hand translation of the Rust text; the correspondence of each definition with
   the cited lines is by review.
3. External crates are parameters of the model or modelled from their documentation:
   * AEAD: `enc`/`dec` partial functions with the laws *decrypt(encrypt) = id*, *ciphertext is 16
     bytes longer*, *a ciphertext that opens is the encryption of what it opens to* (structure
     `Crypto.Lawful`; `Example.toy_lawful` shows the laws are consistent). Integrity ("no forgery") is a separate,
     per-theorem hypothesis over exactly the blocks presented in that execution; it is never assumed for all ciphertexts (that
     would be contradictory).
   * argon2id and balloon: an arbitrary partial function of (algorithm, parameters, password, salt)
     with 32-byte output. Password separation is a hypothesis over a given *finite* set of passwords
     (assuming it for all passwords would contradict the 32-byte output).
   * `aead::stream` (StreamLE31): nonce = prefix ‖ LE32(position ∣ last·2^31),
     error once the counter limit is exceeded. The limit is a parameter below 2^31.
   * blake3: an arbitrary incremental hasher. `Spec.Computes` says that the digest depends only on the concatenation.
   * zip 2.2.0: an archive is a list of (name, content); `Zip.encode`/`Zip.decode` between such lists and bytes are
     arbitrary, with the law `Zip.Lawful` (decode after encode) where needed (C42). Decoding arbitrary bytes may give
     any member list, including members that cannot be opened and members whose content is damaged. `enclosed_name`
     (NUL, absolute, `..` depth) and `is_dir` (trailing slash) are modelled from memory of that version. The archive
     bytes reach the file when the writer is finished.
   * walkdir: yields the entries below a directory; order is a parameter where it matters.
   * clap 4.5.16: the parser is modelled for what cli.rs declares (Model/Cli/Argv.lean, from knowledge of clap_builder 4.5.15): long
     and short names, attached and separate values, `--`, positional arguments with one or several values, `require_equals`, flag
     subcommands, required and conflicting arguments, default values (`contains_id` is true of a defaulted argument), `get_flag` on a
     value argument (panic) and, in debug builds, unknown ids (panic). Words are Unicode strings. Help, version and usage errors are
     one outcome: the parser ends the program; their texts and exit codes are not modelled.
   * rand: the random source is a tape that is consumed in order. rpassword: a list of typed lines.
4. OS: a file is a byte vector; `write` at a position beyond the end zero-fills; no concurrent foreign
   process (except in C96 to C99, C104 to C106, where several commands share a disk, and C101 to C103, where anything may change it); no symbolic links; `is_dir`/`metadata` queries do not fail; opening a directory for reading fails at open;
   paths are sequences of names, `.` and `..`, resolved component by component; permissions are not modelled, except
   that any call may fail.

Not modelled: zeroisation of memory (`protected.rs`), timing, terminal rendering (`visual.rs`, spinners, colours),
error texts, file permissions and other metadata, `RefCell` borrow
errors, `InMemoryStorage` (a test double), the `tests` directories.

## 4. Which code is modelled

| source | model |
|--------|-------|
| volaris-crypto header.rs, key.rs, primitives.rs, cipher.rs, stream.rs | `Model/Header`, `Model/Crypto`, `Model/Primitives`, `Model/Stream` |
| volaris-tools encrypt.rs, decrypt.rs, key/*.rs, header/*.rs, hash.rs, hasher.rs, overwrite.rs, erase.rs, erase_dir.rs, pack.rs, unpack.rs, storage.rs (FileStorage), utils.rs | `Model/Tools/*`, `Model/Utils`, `Model/Zip` |
| volaris-cli cli.rs, cli/prompt.rs, global/*.rs, subcommands.rs, subcommands/*.rs | `Model/Cli/*` |
| protected.rs, visual.rs, InMemoryStorage, tests | not modelled |

## 5. Property by property

| id | modelled | proof |
|----|----------|-------|
| C01–C03 | `Header::serialize`, `deserialize`, `get_size` on world handles | case split on version, parser computed over appended fields; induction on keyslots |
| C04, C05 | `create_aad` and AAD extraction | same layout lemmas |
| C06 | `deserialize` | frame + result lemma for every schedule |
| C07 | `deserialize` | iff with an independent acceptance predicate on byte strings |
| C08, C13 | StreamLE31 nonce construction, encrypt loop | arithmetic on LE bytes; induction on blocks |
| C09, C10 | `encrypt_file`, `decrypt_file` | induction on blocks, refinement to a pure chunk function |
| C11 | `decrypt_file` | induction on blocks under per-execution no-forgery |
| C12, C57 | `encrypt_file` under arbitrary schedules | induction on loop; witness for the negation |
| C14–C17 | `encrypt::execute`, `decrypt::execute`, `decrypt_master_key` | composition of the above |
| C18–C20 | `decrypt::execute`, key search | frame under every schedule; list induction |
| C21–C29, C56 | `key::{add,change,delete,verify}` | keyslot list lemmas; refinement to a password list by induction over histories; all crash points of the header write |
| C30–C34 | `header::{dump,strip,restore}`, `Header::write` | layout lemmas; witnesses for short transfers |
| C35 | `hash::execute` | induction on blocks |
| C36–C39 | `overwrite`, `erase`, `FileStorage` | induction over passes/blocks; log of write events |
| C40, C44 | per-thread step lists and their interleavings | induction over interleavings |
| C41–C43, C45, C58 | `pack::execute`, `unpack::execute`, `enclosed_name` | path-resolution lemma; loop induction; composition for the round trip |
| C46–C50, C59, C60 | prompts, key selection, parameter handling, encrypt/decrypt commands | induction on input lines; decision logic; weakest preconditions stage by stage |
| C51, C52 | `generate_passphrase`, `hex_encode` | list induction |
| C53 | legacy deserialization + decryption | layout lemmas |
| C54 | whole decryption path | result lemma for every schedule |
| C55 | hash dispatch tables | case analysis over all integers |
| C61 | every use of the random source | "the tape only moves forward", compositional; fields of the written header located on the tape |
| C62–C64 | hash, header details and key commands on paths | stages: open, ask, operate; earlier theorems lifted from handles to paths |
| C65 | header dump, strip and restore commands on paths | C62's method; fault-free success by running each stage; the cycle by chaining the three |
| C66 | `erase` from its command line on | case analysis over the input, the answer and C38/C40's outcomes |
| C67 | `packMode`: consent, listing, opening, `Pack.execute`, flushing, erasing, all under faults | invariants along the run (`Trail`, `TreeOk`), listing and archive content lemmas, encrypt/decrypt theorems; witness for an output inside the source |
| C68 | `encryptMode` and `decryptMode` without faults | stage by stage success lemmas, encrypt/decrypt theorems C14/C15 |
| C69 | `unpackMode` with the real overwrite question as callback, all faults | frame of `unpack::execute` (C41/C45) with the dialogue; the consent part refuted by a witness |
| C70 | `packMode` and `unpackMode` without faults | listing of the inputs (C66) is packable, then the library round trip (C42) between the two commands; a forced erasing of the inputs leaves the output alone because it is beside them |
| C71–C74 | `encryptMode`, `decryptMode`, `packMode`, `unpackMode` stopped at any moment (`Spec/Crash.lean`) | every moment of a run is the end of a run under another schedule (`Proofs/Crash.lean`, closed under all combinators); the command splits into its work and its erase; C48, C59, C67, C69 |
| C75, C76 | the key and header commands stopped at any moment | the same adequacy; torn headers (C28, C56), C65; refuted parts by a moment of a concrete run |
| C77, C78 | cli.rs, main.rs and the clap parser on the words of the command line; spec of how lines are written (Spec/CommandLine) | induction over the words with an invariant on what is recorded; refuted part by all lines with a bare switch |
| C79 | the same with the check for undeclared arguments | case analysis over the commands |
| C80 | C77 composed with both commands, their erase steps and the file system | both commands as moves between names; frame lemmas carry the key file across |
| C81 | the log of modifying calls, of which writes may be lost (Spec/PowerLoss) | refuted for all successful runs by the disk with every write lost; positive part: what all moments agree on survives any loss |
| C82 | sequences of invocations with kills | every path a command gets is on its line (invariant of the parser); frames of C46, C66 and C67; C71; induction on the history |
| C83 | histories as in C82 | invariant: some file unwraps to the content; C71, C72, C73 for the lines that work on it, C82 for the others; hash and unpack lines change nothing |
| C84 | the commands, run on two machines | relational logic: the two runs stay in step, and the machines stay alike but for the files that differ |
| C85 | as for C84, passwords and key files may differ too | as for C84; every use of a secret goes through the hash |
| C86 | command lines, run on two machines | as for C84, with an induction over the line for the values that commands get |
| C87 | printed lines with the number of modifying calls made before them | the commands up to the passphrase modify nothing (a small logic); what is printed stays (a field of the crash logic); C68 and C48 for the rest |
| C88 | printed questions with the number of modifying calls made and of lines unread before them | the commands up to the question modify nothing (the logic of C87); what is printed stays (a field of the crash logic); the stages up to the header question as weakest preconditions; the pack command split before its erasing |
| C89 | printed lines with the number of passwords not yet typed | stages of the key commands: opening takes nothing and prints nothing, a key takes at most one password, what is printed stays |
| C90 | files made, with header, associated data, key and plaintext; every AEAD call that decryption can make | the associated data fixes type and nonce, so the first block that opens fixes the file; the counters fix the place of every later block |
| C91 | the results `panic`, `exit` and `outOfFuel` of the whole commands | a judgment for programs that end early only with a declined question, closed under everything the commands are made of, and one for the random numbers; the loops' fuel is shown to suffice |
| C92 | the output of `say` in the whole commands | a judgment for what a program adds to the screen, composed along encrypt, decrypt, pack, unpack and the key, header and erase commands; the hash step is shown to come after the last write and to read the file that was written |
| C93 | histories of kills (`StoppedAt`) of the whole commands | an invariant of killed attempts (the input, the separation of the files and the fitness of the output for writing survive; for packing also what is below the inputs, however many temporary archives are left behind) by induction on their number, then C68 and C70 for the last one; three concrete runs for the negative part |
| C94 | two command lines (`Cli.main`), the whole disk, any later disk for the second one | C77 for what the lines mean, the fault-free run of the pack command (C70) with its archive and frame, the erasing of forced inputs by induction on the inputs, then the fault-free decrypt line of C80 |
| C95 | command lines (`Cli.main`), the four ways in which a run can end | C91 for the possible ends; C48, C59, C67, C62 and C66 for what success means; the split of each command into its work and the erasing, so that a refusal of the first is before any file that matters was touched |
| C96 | encrypt, decrypt, hash, erase, pack and the key and header commands cut into system calls (`Model/Cli/Steps`; `Proofs/Steps` proves that the steps in a row are the commands), processes with their own handles on one disk, arbitrary scheduler | simulation between the process among others and the process alone, up to the numbers of files; rely-guarantee: what a process does to the disk is confined to the places it writes |
| C97 | the same | C96 with C48, C59 and C67; a run of two processes, computed, for the negation |
| C98 | the key operations cut into system calls, processes on one file, arbitrary scheduler, list of passwords as in C24 | a judgment: whatever valid version of the file a process finds at each step, it first reads one version and then writes the version that follows from it, in its last step; machine invariant: every version is that of a chain of successful calls; two computed runs for the negation |
| C99 | the decrypt and dump calls cut into system calls, among the key operations of C98 | a judgment on pairs of disks that differ in the header: up to the step that reads the header the call does not tell any two versions apart, from there on it goes on alike on every disk with the same encrypted data; so its run is the run alone on the version of that step; machine invariant over that of C98 |
| C100 | histories of kills (`StoppedAt`) of the erase command | the disk at a moment is the disk at the end of a run with other faults, so C66 speaks of the moments too; what has at most happened is transitive; induction on the number of attempts, then C66 for the last one |
| C101 | the commands as sequences of system calls (C96), each on an arbitrary disk | a judgement on step sequences: every step changes names only at given places, contents only of files behind handles that were opened there; the files met so far grow along the run; compositional over the code of all commands, then induction over the steps of one process and of a machine |
| C102 | the steps of the decrypt command (C96), each on an arbitrary disk; an adversary who cannot forge blocks under the recovered data keys | a judgement on step sequences with the stage of the delivery (opening, laying the bytes q, erasing); the header parser reads at several moments, so the version code and the rest are joined by patching, and the length of the associated data shows that an opened block had a consistent header; induction over the blocks with the chunk positions of the genuine file |
| C103 | the steps of the encrypt command (C96), each on an arbitrary disk | a judgement on step sequences with a stage (files emptied so far; header and body written so far; erasing) and a relation that says which changes of files move it on; induction over the blocks, the plaintext being the blocks read and the body their encryption in order, so that C01's decryption specification holds of header and body together |
| C104 | the machine of C96 (processes with a shared disk, one system call at a time) with the steps of any commands | an invariant of the machine: every process that encrypts the file is in a stage of C103 that agrees with what its output and header file hold, and the file has its content, or one process has finished encrypting and only erases; its preservation uses C103's judgement for the process that moves and C101's for all others |
| C105 | the machine of C104 | the invariant of C104 for any work that makes an output of the file before it erases it; for decryption the stages of C103 with an empty header, and the judgement that, as long as the file (and the header file) do not change, the bytes written so far are the plaintext of the blocks read so far, up to the last block |
| C106 | the machine of C104 | the invariant of C104 for packing as work with an output: stages (listing, archiving, sealing, erasing); a judgement that the listing has the file as long as it is there, that the archive bytes in the temporary file are those of a lawful archive with the content read, that they are still there when they are read back, and then the stages of C103 with the archive as input |
| C107 | the pack and unpack commands (C70), the callback told to overwrite | induction over the members with an invariant for the part already written (each packed place holds what was there or what was packed, no other place has changed); files that exist are truncated and written, so their content is replaced; for attempts that were killed, induction over the attempts: what C45 says about a whole run holds at every moment of it, and keeps what is at the output free of clashes |

## 6. What was found false

For these the required property is kept in `properties.jsonl`, its negation is proved with a concrete witness (or for all
inputs), and the strongest true part carries the suffix `_partial`. Their status is `partial`.

* C12 – a short read makes `encrypt_file` treat a block as the last one: the rest of the input is lost, `Ok` is returned
  (also in `hash`, C35_short_read; in `pack`; through the command, C48_short).
* C28 – a torn header write in `add`/`delete` can make the header unreadable (a keyslot that starts with 0xDF and a byte that is no hash identifier).
* C33 – `restore` checks for zeros with one `read`; a short read lets it overwrite data.
* C34 – headers are written with `write`, not `write_all`: a short write is reported as success.
* C37 – the random passes of `overwrite` write nothing (`fill_bytes` on an empty vector).
* C39 – `erase` truncates before it overwrites: the old content is never overwritten.
* C43 – the temporary plaintext archive is left behind on several error paths of pack and unpack.
* C48 – the "same file" check compares strings: `encrypt f ./f` destroys f; with erasing, also short reads.
* C49 – the default value of `--erase` is taken for the option: every encrypt/decrypt command erases its input.
* C50 – the default value of `--keyfile`/`--auto` is taken for the option in encrypt and pack: they never ask for a password.
* C51 – `generate_passphrase` indexes one past the end of the word list: panics with probability about 1/7777 per word.
* C69 – `unpack` overwrites an existing file without a question if the member's name goes through a directory that does not
  exist yet (`d/`, then `d/../x`): the check is made before the directories are.
* C75 – `key add`, stopped when one byte of the new keyslot has arrived, leaves a file that no password opens. (`key change`, stopped
  in the middle of the keyslot, leaves one that neither the old nor the new password opens.)
* C76 – `header strip`, stopped in the middle, leaves a file that `strip`, `restore` and `decrypt` (with and without the dumped
  header) all refuse: the first says there is no header, the others that there is one.
* C78 – no switch can be given without a value: `volaris encrypt --force in out` is refused, and `volaris pack -r a b out` packs `b`
  only (`a` is taken as the value of `-r`). `header` and `key` are not declared, so all of header and key management
  (and C61, C64, C65, C75, C76) cannot be used from the command line.
* C79 – with debug assertions, every `decrypt` and every `unpack` panics: they ask clap for `argon` (and `autogenerate`), which they
  do not declare.
* C81 – the input is erased although the output was never synchronised (`fsync`): after each successful `encrypt` or `decrypt` line a
  power failure may leave neither.
* C88 – `encrypt` and `pack` empty the output before they ask about the header file: a user who declines the second question has lost the old content of the
  output, nothing has been encrypted, and the exit code is 0 (`C88_declined_late`). The question before a directory is erased does not say which directory.
* C90 – headers of versions 1 and 2 are not authenticated with the body. Whoever can write to such a file in stream mode can turn it, without any secret, into
  a memory mode file that decrypts without error to any one of its full blocks (`C90_old_versions`).
* C100 – `erase` given a directory by a path with `..` in it (`a/b/..`), killed while the directories are removed, cannot be started again: the path leads nowhere
  any more, and empty directories stay (`C100_dots`). The contents and names of all files are gone in any case.
* C93 – a command line that was killed while it erased its input (emptied, but the name still there) must not be repeated: `encrypt` then encrypts the empty file
  over the only copy, `decrypt` fails but has emptied its output, `pack` replaces the archive with one of what is left (`C93_encrypt_false`, `C93_decrypt_false`,
  `C93_pack_false`). Since encrypt and decrypt lines always erase (C49), every use of them is affected.
* C95 – declining a question ends the program with the exit status 0, as if the work were done; and with a detached header the two questions of `encrypt` are asked one after the
  other, with the output already truncated in between: agreeing to overwrite the output and declining to overwrite the header file empties the output, encrypts nothing and leaves status 0 (`C95_false`).
* C97 – `overwrite_check` and the creation of the output are separate system calls, and `create_file(…).or_else(|_| write_file(…))` turns "somebody else has created it" into
  truncation. Two `encrypt` processes with the same new output both succeed without a question, both erase their inputs, and one of the two contents is lost (`C97_race`).
* C104 – the same `encrypt` line (which erases its input, C49) started twice at the same time can lose the file: the second process has opened the input when the first one finishes and erases it; it then truncates the
  complete output and encrypts to it the nothing that it reads. The first process has reported success, and the output decrypts without an error to an empty file (`C104_same_output`).
* C105 – the same `decrypt` line with `--erase` started twice at the same time can lose both the encrypted file and the plaintext: the second process, which has opened the input, truncates the complete output and then
  fails because the erased input has no header (`C105_same_output`).
* C105 – a header file (`--header`) that is a directory is ignored by `decrypt`: the header is then read from the input (`try_reader` of a directory fails, and the failure is turned into "no header file"; the conclusion of `C105_together` has this case).
* C106 – the same `pack --erase` line started twice at the same time can lose everything: the second process, which has seen that the input is a directory, truncates the complete output after the first has erased the input,
  and then fails because there is nothing to list (`C106_same_output`).
* C101 – the input is opened for reading by its name and erased, later, by its name. If another program renames another file to that name in between, that file is erased although it was never
  encrypted, and the command reports success (`C101_renamed`).
* C101 – `unpack` decrypts to a temporary file and then reads the archive from there again. Whoever can write to that file in between decides what is unpacked, although the input was authenticated; it stays in
  the output directory (`C101_swapped`, `C101_unpack`).
* C98 – the key operations read the header, hash the passwords and write the whole header back, without a lock. Of two additions at the same time both can report success and one be lost
  (`C98_update_lost`); a deleted password comes back with the header that another process has read before (`C98_deleted_returns`).

True but surprising, stated as positive theorems:

* C91 – a declined question ends the program with exit code 0, so a script cannot tell a refusal from success; a line for which a passphrase is made up panics
  with probability about n / (number of words + 1) (C51).
* C16 – version 4 files encrypted with another hash than Balloon v4 cannot be decrypted; C17 – version 3 panics.
* C26 – `key verify` says no to the right password if the data key is all zero; C27 – the last key may be deleted.
* C15_zero_ciphertext – a detached body that happens to start with zeros is misread.
* C14_longer_destination_fails – `encrypt::execute` does not truncate its writer.
* C42_backslash – names with a backslash are not restored.
* C67_inside – `pack --erase a a/out` writes the archive into the source and erases it with the source.
* C60 – `unpack` panics on every command line (`get_flag("verbose")` on a value argument).

Further observations that come from writing the model, not stated as theorems: `get_answer` with force returns true
(its comment says otherwise); absolute and `..` names are packed but skipped by unpack; a failure of the password hash on
one keyslot ends the key search; `unpack` skips members that cannot be opened and returns `Ok`; pack and unpack
ignore errors of the clean-up; declining to overwrite the header file happens after the output was truncated; `header dump` on a file without a
header (or on a directory) has already emptied the output it was allowed to overwrite; serialising a header with more than four keyslots
(none of the commands makes one) panics in debug builds and asks for an impossible allocation in release builds, where `4 - len` wraps.
Symbolic links are not modelled. In the calls the commands make, a link to a file acts like a second name of it, which the model has (two
entries with the same inode); a link to a directory does not exist in it. `Ciphers::encrypt_in_place` has no caller and is not modelled.
