{"id": "C01", "title": "Header round trip, latest format", "statement": "Serializing a V5 header and deserializing the result (with any data following it) gives back the same version, algorithm, mode, nonce and keyslots in the same order, and leaves the reader exactly at the first byte after the header.", "quantifier": "every algorithm, mode, nonce of the right length, every list of 0..4 keyslots with supported hash algorithms and arbitrary contents, every trailing data and every starting offset; the read and the write meet no fault (with faults: C06, C34)", "why_tests_cant": "there are astronomically many nonces, salts, encrypted keys and keyslot combinations; the repo tests one byte string", "anchors": ["crates/volaris-crypto/src/header.rs: Header::serialize, Header::deserialize, Keyslot::serialize"]}
{"id": "C02", "title": "Header round trip, older formats", "statement": "Serializing a V3 or V4 header and deserializing it gives back the same version, algorithm, mode, nonce, salt and (V4) keyslot; V1 and V2 headers can be read but serializing them is always an error.", "quantifier": "every algorithm, mode, nonce, salt, encrypted master key and master key nonce of the right length; the read and the write meet no fault (with faults: C06, C34)", "why_tests_cant": "input space is unbounded for testing; V3 is not tested at all in the repo", "anchors": ["crates/volaris-crypto/src/header.rs: serialize_v3, serialize_v4, Header::serialize, Header::deserialize"]}
{"id": "C03", "title": "Header size is exactly what is written and read", "statement": "For every well-formed header of a serializable version, the number of bytes serialize() produces equals get_size(), and it equals the number of bytes deserialize() consumes.", "quantifier": "every well-formed V3/V4/V5 header; every readable byte source", "why_tests_cant": "must hold for every nonce length/keyslot count combination and any trailing content", "anchors": ["crates/volaris-crypto/src/header.rs: Header::get_size, Header::serialize, Header::deserialize"]}
{"id": "C04", "title": "Encrypt-side and decrypt-side AAD agree", "statement": "The additional authenticated data computed for a header when encrypting equals the one deserialize() returns after that header has been written out, so a freshly encrypted file authenticates on decryption.", "quantifier": "every well-formed V3, V4 and V5 header (with the salt field absent or present as encrypt produces it), any trailing data; the reads meet no fault", "why_tests_cant": "two independent code paths must agree on every header; a mismatch on one nonce length makes files undecryptable", "anchors": ["crates/volaris-crypto/src/header.rs: Header::create_aad, Header::deserialize"]}
{"id": "C05", "title": "AAD does not depend on the keyslots", "statement": "Two V5 headers that differ only in their keyslots have the same AAD; two V4 headers that differ only in the encrypted master key and its nonce have the same AAD. So managing keys never invalidates the encrypted body.", "quantifier": "every pair of headers agreeing on version, algorithm, mode, nonce (and salt for V4)", "why_tests_cant": "quantifies over pairs of arbitrary headers", "anchors": ["crates/volaris-crypto/src/header.rs: Header::create_aad"]}
{"id": "C06", "title": "Reading a header from untrusted bytes is safe and bounded", "statement": "For every byte source, position and pattern of short reads and I/O errors, deserialize() never panics and never modifies data; when it succeeds it has advanced by exactly 64, 128 or 416 bytes according to the version byte, and the header has a nonce of the length its algorithm and mode require, at most four keyslots, each with correctly sized fields and a supported hash algorithm.", "quantifier": "every file content, starting offset and I/O schedule", "why_tests_cant": "malformed inputs are unbounded; a fuzzer only samples them", "anchors": ["crates/volaris-crypto/src/header.rs: Header::deserialize"]}
{"id": "C07", "title": "What is accepted as a header", "statement": "deserialize() succeeds on fully readable data exactly when the first two bytes name a known version, enough bytes for that version are present, the next two byte pairs name a known algorithm and mode and (V5) every keyslot identifier starting with 0xDF that the scan meets names a supported hash algorithm.", "quantifier": "every byte string; the reads meet no fault (with faults: C06)", "why_tests_cant": "an exact characterisation of acceptance cannot be sampled", "anchors": ["crates/volaris-crypto/src/header.rs: Header::deserialize"]}
{"id": "C08", "title": "Nonces are never reused inside one encrypted file", "statement": "All AEAD nonces used for the blocks of one stream are pairwise distinct, and the nonce of the final block differs from the nonce every non-final block could use.", "quantifier": "every nonce prefix, every number of blocks up to the counter limit", "why_tests_cant": "the counter space is 2^28..2^31 blocks (petabytes)", "anchors": ["crates/volaris-crypto/src/stream.rs: EncryptionStreams::encrypt_file, encrypt_next, encrypt_last", "crates/volaris-crypto/src/primitives.rs: get_nonce_len"]}
{"id": "C09", "title": "Stream encryption round trip", "statement": "For a reader that returns full buffers until end of data, encrypt_file followed by decrypt_file with the same key, nonce, algorithm and AAD writes exactly the original bytes, and both succeed, for every plaintext length including empty and exact multiples of the block size.", "quantifier": "every plaintext, key, nonce, AAD, algorithm and any existing position in the source; no operation fails or is shortened (otherwise: C12, C57)", "why_tests_cant": "lengths around every multiple of 1 MiB and all contents cannot be enumerated", "anchors": ["crates/volaris-crypto/src/stream.rs: encrypt_file, decrypt_file", "crates/volaris-crypto/src/primitives.rs: BLOCK_SIZE"]}
{"id": "C10", "title": "Ciphertext size formula", "statement": "An encrypted stream is exactly plaintext length + 16*(floor(plaintext length / 1 MiB) + 1) bytes long, and the whole embedded file is that plus the header size.", "quantifier": "every plaintext length; all failing or interrupted operations, the exact length where no transfer is short (otherwise: C12, C57)", "why_tests_cant": "needs all lengths, including exact block multiples", "anchors": ["crates/volaris-crypto/src/stream.rs: encrypt_file", "crates/volaris-tools/src/encrypt.rs: execute"]}
{"id": "C11", "title": "Tampering with the body is detected and never yields wrong plaintext", "statement": "If any encrypted body other than the genuine one (modified, truncated, extended, re-ordered, duplicated blocks) is decrypted with the genuine header and no AEAD forgery occurs, decryption reports an error, and everything written to the output before the error is a prefix of the genuine plaintext.", "quantifier": "every plaintext and every replacement body; every schedule of failing or interrupted operations without short transfers", "why_tests_cant": "adversarial inputs are unbounded; truncation at every block boundary must be covered", "anchors": ["crates/volaris-crypto/src/stream.rs: decrypt_file", "crates/volaris-tools/src/decrypt.rs: execute"]}
{"id": "C12", "title": "Short reads silently lose data (the property 'any conforming reader is encrypted completely' is false)", "statement": "Required: for every conforming reader, encrypt_file returning Ok means the whole input was encrypted. The code treats any short read as end of input. What holds for every schedule of short reads, interruptions, failures: Ok implies that the output is the encryption of a prefix of the input, that this is the whole input if no transfer was short, and that it can be cut off only within a block: whatever is a whole number of blocks is the whole input. Conversely, for every length within a block there is a schedule with one short read that cuts the input off there, with Ok.", "quantifier": "every input and every schedule of short reads, interruptions, write splits and I/O errors", "why_tests_cant": "requires quantifying over all read schedules", "anchors": ["crates/volaris-crypto/src/stream.rs: encrypt_file", "crates/volaris-tools/src/hash.rs: execute", "crates/volaris-tools/src/pack.rs: execute"]}
{"id": "C13", "title": "Block counter exhaustion is an error, never a wrap-around", "statement": "If the input has more blocks than the stream counter allows, encryption and decryption report an error; a nonce is never reused by wrapping.", "quantifier": "every input length and every counter limit below 2^31; no panic under every schedule, the error under every schedule without short transfers", "why_tests_cant": "would need a multi-terabyte test input", "anchors": ["crates/volaris-crypto/src/stream.rs: encrypt_next, encrypt_last"]}
{"id": "C14", "title": "End-to-end: encrypt then decrypt with the same password", "statement": "encrypt::execute (V5, stream mode, any algorithm, any supported hash algorithm) into an empty destination succeeds when the primitives do, and decrypt::execute on the result with the same raw key succeeds and writes exactly the original input.", "quantifier": "every password, plaintext, algorithm, supported hashing algorithm and every random salt/nonce/master key; success without faults, its meaning under every schedule of failing or interrupted operations without short transfers (otherwise: C12, C28)", "why_tests_cant": "randomised algorithm over unbounded input; repo tests use one fixed seed and one 11-byte message", "anchors": ["crates/volaris-tools/src/encrypt.rs: execute", "crates/volaris-tools/src/decrypt.rs: execute", "crates/volaris-crypto/src/key.rs: decrypt_master_key"]}
{"id": "C15", "title": "End-to-end with a detached header", "statement": "When the header is written to a separate destination, decrypting body plus header file gives the original input, both when the body file has no header space and when it starts with a header-sized run of zero bytes (stripped file), provided the genuine ciphertext itself does not start with a header-sized run of zeros.", "quantifier": "every password, plaintext (including ones shorter than the header), algorithm, hashing algorithm and random choices; no operation fails or is shortened (with faults: C14, C16)", "why_tests_cant": "the heuristic that looks for an empty header must be right for every ciphertext", "anchors": ["crates/volaris-tools/src/encrypt.rs: execute", "crates/volaris-tools/src/decrypt.rs: execute"]}
{"id": "C16", "title": "V4 files are only decryptable when encrypted with the hash the format implies", "statement": "encrypt::execute for V4 accepts every supported hashing algorithm but the V4 header does not record it. With BLAKE3-Balloon v4 encrypt-then-decrypt is the identity; with any other hashing algorithm encryption reports success although decryption with the same password fails whenever the two hashes of that password do not open the same keyslot.", "quantifier": "every password, plaintext, algorithm, hashing algorithm and random choices", "why_tests_cant": "combination of version and algorithm over all inputs", "anchors": ["crates/volaris-tools/src/encrypt.rs: execute", "crates/volaris-crypto/src/header.rs: deserialize V4 arm", "crates/volaris-crypto/src/key.rs: decrypt_master_key"]}
{"id": "C17", "title": "Unsupported encryption requests never report success", "statement": "encrypt::execute with memory mode, with header V1, V2 or V3, or with an unsupported hashing-algorithm version never returns Ok and leaves the content of every destination unchanged (V3 aborts by panicking instead of returning an error).", "quantifier": "every request and every initial destination content; no operation fails or is shortened", "why_tests_cant": "all request combinations and contents", "anchors": ["crates/volaris-tools/src/encrypt.rs: execute", "crates/volaris-crypto/src/stream.rs: EncryptionStreams::initialize", "crates/volaris-crypto/src/header.rs: serialize_v3"]}
{"id": "C18", "title": "A wrong password never decrypts and writes nothing", "statement": "If the supplied raw key opens no keyslot, decrypt::execute returns an error and the output is untouched; for V1-V3 (no keyslots) a failing first block writes nothing.", "quantifier": "every file with a valid header, every key not opening any keyslot, every I/O schedule", "why_tests_cant": "all wrong keys cannot be enumerated", "anchors": ["crates/volaris-tools/src/decrypt.rs: execute", "crates/volaris-crypto/src/key.rs: decrypt_master_key"]}
{"id": "C19", "title": "Tampering with the authenticated header fields is detected", "statement": "If the first 32 bytes of a V5 file (version, algorithm, mode, nonce, padding) are changed in any way and the master key can still be recovered, decryption never returns Ok with anything written beyond nothing: it reports an error, unless an AEAD forgery occurred.", "quantifier": "every replacement of the static header part", "why_tests_cant": "all 2^256 replacements", "anchors": ["crates/volaris-crypto/src/header.rs: deserialize", "crates/volaris-tools/src/decrypt.rs: execute"]}
{"id": "C20", "title": "Any keyslot opens the file", "statement": "Decryption with a raw key that opens at least one keyslot of a V5 header recovers the key stored in the first keyslot it opens, regardless of the position and of other keyslots that cannot be opened.", "quantifier": "every list of keyslots and every key", "why_tests_cant": "all keyslot lists and positions", "anchors": ["crates/volaris-crypto/src/key.rs: decrypt_master_key"]}
{"id": "C21", "title": "Adding a key", "statement": "After a successful key add, the new key and every key that worked before decrypt the file to the same plaintext, the number of keyslots grew by one, and no byte outside the 416-byte header changed.", "quantifier": "every V5 file, old/new password, hashing algorithm and random choices; the effect of a success under every schedule of failing or interrupted operations without short transfers (otherwise: C28), success itself without faults", "why_tests_cant": "unbounded inputs and prior histories", "anchors": ["crates/volaris-tools/src/key/add.rs: execute", "crates/volaris-tools/src/key.rs: decrypt_v5_master_key_with_index, encrypt_master_key"]}
{"id": "C22", "title": "Changing a key", "statement": "After a successful key change the new key decrypts the file, every other keyslot still does, the replaced keyslot is gone, and no byte outside the header changed.", "quantifier": "every V5 file, old/new password, hashing algorithm and random choices; the effect of a success under every schedule of failing or interrupted operations without short transfers (otherwise: C28), success itself without faults", "why_tests_cant": "unbounded inputs and prior histories", "anchors": ["crates/volaris-tools/src/key/change.rs: execute"]}
{"id": "C23", "title": "Deleting a key", "statement": "After a successful key delete exactly the first keyslot opened by the supplied key is removed, the others keep their order and still decrypt the file, and no byte outside the header changed.", "quantifier": "every V5 file with 1..4 keyslots and every key; the effect of a success under every schedule of failing or interrupted operations without short transfers (otherwise: C28), success itself without faults", "why_tests_cant": "unbounded inputs and prior histories", "anchors": ["crates/volaris-tools/src/key/delete.rs: execute"]}
{"id": "C24", "title": "Any history of key operations behaves like a list of passwords", "statement": "Starting from a freshly encrypted file, any sequence of add, change, delete and verify calls with any keys returns the same success/error results as the obvious operations on a list of at most four passwords, and after every step exactly the passwords in the list decrypt the body to the original plaintext. If operations of the operating system or primitives fail on the way, the calls that report success, and no others, are the ones carried out on the list.", "quantifier": "every finite sequence of key operations over a set of passwords that the hash function separates, all random choices; the results without faults, the list of passwords under every schedule of failing or interrupted operations without short transfers (otherwise: C28)", "why_tests_cant": "histories are unbounded", "anchors": ["crates/volaris-tools/src/key/add.rs", "crates/volaris-tools/src/key/change.rs", "crates/volaris-tools/src/key/delete.rs", "crates/volaris-tools/src/key/verify.rs", "crates/volaris-tools/src/decrypt.rs"]}
{"id": "C25", "title": "Failed key operations leave the file intact", "statement": "If a key operation returns any error before its header write (wrong key, header below V5, not a header, too many keyslots, failed hash, seek/read failure), no byte of the file has changed; key verify never changes the file.", "quantifier": "every file content, key, and I/O schedule", "why_tests_cant": "all error points under all schedules", "anchors": ["crates/volaris-tools/src/key/add.rs", "crates/volaris-tools/src/key/change.rs", "crates/volaris-tools/src/key/delete.rs", "crates/volaris-tools/src/key/verify.rs"]}
{"id": "C26", "title": "Key verify answers correctly", "statement": "On a V5 header whose stored master key is not all zero, verify returns Ok exactly when decryption's key search succeeds with that key, and IncorrectKey otherwise; an all-zero master key is wrongly reported as an incorrect key.", "quantifier": "every V5 header and every key; the reads meet no fault", "why_tests_cant": "all headers and keys", "anchors": ["crates/volaris-tools/src/key/verify.rs", "crates/volaris-tools/src/key.rs: decrypt_v5_master_key_with_index", "crates/volaris-crypto/src/key.rs: decrypt_master_key"]}
{"id": "C27", "title": "Deleting the only key makes the file undecryptable", "statement": "Key delete does not protect the last key: on a file with exactly one keyslot it succeeds, and afterwards decryption fails for every possible key.", "quantifier": "every single-key file and every subsequently tried key", "why_tests_cant": "quantifies over all keys", "anchors": ["crates/volaris-tools/src/key/delete.rs: execute", "crates/volaris-crypto/src/key.rs: decrypt_master_key"]}
{"id": "C28", "title": "Crash or short write in the middle of a key operation", "statement": "Required: at every crash point of the in-place header rewrite the keys not being operated on still open the file. Holds for change at every point and for add at every point except one byte into the new slot, where the header is no longer accepted at all; for delete it holds when the half-erased slot has no 0xDF byte at offsets the scan can hit.", "quantifier": "every split point of the header write, every file and key set", "why_tests_cant": "all crash points times all slot contents", "anchors": ["crates/volaris-tools/src/key/change.rs", "crates/volaris-tools/src/key/add.rs", "crates/volaris-tools/src/key/delete.rs", "crates/volaris-crypto/src/header.rs: Header::write, Header::deserialize"]}
{"id": "C29", "title": "At most four keys", "statement": "Adding to a header with four keyslots returns TooManyKeyslots and changes nothing; no operation sequence ever produces a header with more than four keyslots.", "quantifier": "every header and history; every schedule of failing or interrupted operations without short transfers (otherwise: C28)", "why_tests_cant": "unbounded histories", "anchors": ["crates/volaris-tools/src/key/add.rs: execute", "crates/volaris-crypto/src/header.rs: serialize_v5"]}
{"id": "C30", "title": "Header dump is exact", "statement": "Dumping the header of a file produced by this software (V3 or later) writes exactly its first get_size() bytes; dumping V1/V2 headers or non-headers is an error that writes nothing.", "quantifier": "every canonical header and body; every schedule of failing or interrupted operations without short transfers (otherwise: C34)", "why_tests_cant": "all headers", "anchors": ["crates/volaris-tools/src/header/dump.rs: execute"]}
{"id": "C31", "title": "Header strip", "statement": "Stripping zeroes exactly the first get_size() bytes of a file that starts with a valid header and changes nothing else; on anything else it returns InvalidFile and changes nothing.", "quantifier": "every file content; what an outcome means under every schedule, success without faults", "why_tests_cant": "all contents and versions", "anchors": ["crates/volaris-tools/src/header/strip.rs: execute"]}
{"id": "C32", "title": "Dump, strip, restore is the identity", "statement": "Dumping the header, stripping the file and restoring the dump gives back the original file byte for byte.", "quantifier": "every file with a canonical V3/V4/V5 header; no operation fails or is shortened (with faults: C25, C31, C33, C34)", "why_tests_cant": "all headers and bodies", "anchors": ["crates/volaris-tools/src/header/dump.rs", "crates/volaris-tools/src/header/strip.rs", "crates/volaris-tools/src/header/restore.rs"]}
{"id": "C33", "title": "Restore never overwrites data", "statement": "Required: restore refuses, leaving the file unchanged, unless the first get_size() bytes of the target are all zero. Holds when reads return full buffers (a target shorter than the header counts as zero-padded); with a short read the check only sees the bytes returned and non-zero data is overwritten.", "quantifier": "every header source and target content, every read schedule", "why_tests_cant": "all contents and schedules", "anchors": ["crates/volaris-tools/src/header/restore.rs: execute"]}
{"id": "C34", "title": "Writing a header is all-or-error", "statement": "Required: Ok from a header write means all bytes were written. The code uses a single write call, so a short write is reported as success; it holds exactly for schedules where that write is not short.", "quantifier": "every header and every write outcome", "why_tests_cant": "all split points", "anchors": ["crates/volaris-crypto/src/header.rs: Header::write", "crates/volaris-tools/src/encrypt.rs: execute"]}
{"id": "C35", "title": "Hash command hashes the whole file", "statement": "hash::execute returns the digest of the complete file content irrespective of the initial position and length, never modifies the file, for readers that return full buffers until end of file.", "quantifier": "every content, position; every incremental hasher", "why_tests_cant": "all lengths incl. block multiples", "anchors": ["crates/volaris-tools/src/hash.rs: execute", "crates/volaris-tools/src/hasher.rs"]}
{"id": "C36", "title": "Overwrite leaves only zeros", "statement": "overwrite::execute with capacity equal to the file length leaves a file of the same length consisting only of zero bytes, for every number of passes, and touches no other file.", "quantifier": "every content, length, pass count (including zero and negative), prior position; what an outcome means under every schedule, success without faults", "why_tests_cant": "all lengths relative to the 512-byte block and all pass counts", "anchors": ["crates/volaris-tools/src/overwrite.rs: execute"]}
{"id": "C37", "title": "Overwrite passes write random data (false)", "statement": "Required: each of the requested passes overwrites the whole content once before the final zero pass. The code writes empty blocks: for every capacity and pass count the only bytes ever written are the final zeros.", "quantifier": "every capacity and pass count", "why_tests_cant": "quantifies over all write traces", "anchors": ["crates/volaris-tools/src/overwrite.rs: execute"]}
{"id": "C38", "title": "Erase removes the file and nothing else", "statement": "erase::execute on an existing regular file returns Ok and afterwards the path does not exist while all other paths and file contents are unchanged; on a missing path it returns an error and changes nothing; on any fault the only file that may have changed is the target.", "quantifier": "every file system state, path, pass count and fault schedule", "why_tests_cant": "all states and fault points", "anchors": ["crates/volaris-tools/src/erase.rs: execute", "crates/volaris-tools/src/storage.rs: FileStorage"]}
{"id": "C39", "title": "Erase overwrites the content before deleting (false)", "statement": "Required: before the file is removed every byte of its original content has been overwritten in place. FileStorage opens the file with truncation before its length is taken, so for every file no data byte is ever overwritten.", "quantifier": "every file content and pass count", "why_tests_cant": "quantifies over all write traces", "anchors": ["crates/volaris-tools/src/erase.rs: execute", "crates/volaris-tools/src/storage.rs: write_file"]}
{"id": "C40", "title": "Erase directory under every thread schedule", "statement": "For every interleaving of the per-file erase threads, erase_dir on a directory removes every file and directory below it and leaves everything outside unchanged; the directory is removed only if every file erase succeeded.", "quantifier": "every directory tree and every interleaving", "why_tests_cant": "schedules grow factorially", "anchors": ["crates/volaris-tools/src/erase_dir.rs: execute"]}
{"id": "C41", "title": "Unpack never writes outside the target directory", "statement": "For every decrypted archive, including hostile entry names with '..', absolute paths or mixtures, every file or directory unpack creates or overwrites (other than its temporary file) lies inside the output directory after resolving '.' and '..'.", "quantifier": "every archive entry list and every output directory", "why_tests_cant": "hostile names are unbounded", "anchors": ["crates/volaris-tools/src/unpack.rs: execute"]}
{"id": "C42", "title": "Pack then unpack restores the tree", "statement": "Packing a set of entries with relative names without '..' and unpacking into an empty directory recreates every directory and file with identical content; entries whose names are absolute or climb above the root are silently skipped by unpack.", "quantifier": "every entry list with distinct names whose parent directories are listed and whose file names do not end with a backslash (such a file comes back as an empty directory), every content and password, every interleaving of the directory threads; no I/O faults", "why_tests_cant": "all trees", "anchors": ["crates/volaris-tools/src/pack.rs: execute", "crates/volaris-tools/src/unpack.rs: execute"]}
{"id": "C43", "title": "Temporary plaintext archive is always destroyed", "statement": "Required: after pack or unpack returns, the temporary plaintext archive no longer exists. Holds when the operation succeeds and, for pack, when encryption fails; it is left behind when adding a file to the archive fails (pack) or when decryption or extraction fails (unpack).", "quantifier": "every input and every fault schedule", "why_tests_cant": "all failure points", "anchors": ["crates/volaris-tools/src/pack.rs: execute", "crates/volaris-tools/src/unpack.rs: execute"]}
{"id": "C44", "title": "Directory creation in unpack is independent of thread order", "statement": "For every interleaving of the directory-creation threads the resulting set of directories is the same, no thread fails, and existing files are untouched.", "quantifier": "every list of directories and every interleaving", "why_tests_cant": "schedules grow factorially", "anchors": ["crates/volaris-tools/src/unpack.rs: execute step 5"]}
{"id": "C45", "title": "Declined files are not touched by unpack", "statement": "If the per-file callback declines an entry, unpack neither creates nor modifies that path, unless another entry that leads to the same place, or through it, was accepted.", "quantifier": "every archive and every callback; every schedule of failing or interrupted operations without short transfers; all members asked about without faults", "why_tests_cant": "all archives and callbacks", "anchors": ["crates/volaris-tools/src/unpack.rs: execute"]}
{"id": "C46", "title": "Existing files are only overwritten with consent", "statement": "The overwrite check returns yes without asking only if the file does not exist or force is set; otherwise it returns exactly the user's first recognised answer (empty line = default), ignoring unrecognised lines, and end of input is an error. The encrypt and decrypt commands change an existing file only if they were told to (force), the user agreed, or it is the input that is to be erased; a declined question ends the command with exit code 0 before anything changed.", "quantifier": "every sequence of input lines", "why_tests_cant": "unbounded input sequences", "anchors": ["crates/volaris-cli/src/cli/prompt.rs: get_answer, overwrite_check"]}
{"id": "C47", "title": "The key used is never empty and was confirmed", "statement": "Whatever the key source, a secret that is returned is non-empty; an interactively entered new password is returned only if it was typed twice identically; the source is chosen by the fixed priority keyfile, environment, generated, prompt.", "quantifier": "every key source, file content, environment, and sequence of typed passwords; what a success means under every schedule, success without faults", "why_tests_cant": "unbounded input sequences", "anchors": ["crates/volaris-cli/src/global/states.rs: Key::get_secret, Key::init", "crates/volaris-cli/src/cli/prompt.rs: get_password"]}
{"id": "C48", "title": "The encrypt command never loses the input", "statement": "Required: however the encrypt command ends, the input file still has its original content, or it was to be erased and the output (with its header) decrypts under the given secret to that content. Holds whenever input, output and header path denote different files and no transfer is short; false when two different spellings name the same file, because only the strings are compared and the output is truncated first; false when a read is short, because the rest of the file is taken for read and the input erased.", "quantifier": "every file system state, path spelling, fault schedule and user answers", "why_tests_cant": "all failure points and aliasings", "anchors": ["crates/volaris-cli/src/subcommands/encrypt.rs: stream_mode"]}
{"id": "C49", "title": "The input file is kept unless erasure was requested (false)", "statement": "Required: encrypt and decrypt keep the input file unless --erase is given. Because the option has a default value and presence is tested with contains_id, erasure is selected for every command line of encrypt and decrypt.", "quantifier": "every command line accepted by the parser", "why_tests_cant": "all command lines", "anchors": ["crates/volaris-cli/src/cli.rs: get_matches", "crates/volaris-cli/src/global/parameters.rs: parameter_handler"]}
{"id": "C50", "title": "Key source defaults follow the command line (false)", "statement": "Required: without --auto, --keyfile or environment variable the user is asked for a password. Because --auto has a default value, encrypt and pack never prompt: a passphrase is generated for every such command line.", "quantifier": "every command line accepted by the parser and environment", "why_tests_cant": "all command lines", "anchors": ["crates/volaris-cli/src/cli.rs", "crates/volaris-cli/src/global/states.rs: Key::init"]}
{"id": "C51", "title": "Generated passphrases", "statement": "A generated passphrase of n words is n list words joined by single dashes; Required: generation never fails - false, the index range includes the list length, and exactly that draw panics.", "quantifier": "every word count and every sequence of random draws", "why_tests_cant": "the failing draw has probability 1/7772 per word", "anchors": ["crates/volaris-crypto/src/key.rs: generate_passphrase"]}
{"id": "C52", "title": "Hex output is faithful", "statement": "hex_encode produces two lower-case hex digits per byte and is injective, so displayed salts, nonces and keys can be recovered exactly.", "quantifier": "every byte string", "why_tests_cant": "all byte strings", "anchors": ["crates/volaris-tools/src/utils.rs: hex_encode", "crates/volaris-cli/src/subcommands/header.rs: details"]}
{"id": "C53", "title": "Legacy files stay readable", "statement": "A V1, V2 or V3 file laid out according to its format (stream or memory mode) and encrypted under the matching argon2id parameters decrypts to its plaintext; V1 and V2 use empty AAD and V3 the whole header.", "quantifier": "every password, salt, nonce, algorithm, mode and plaintext", "why_tests_cant": "no encoder exists in the repo any more, so no test can produce such files", "anchors": ["crates/volaris-crypto/src/header.rs: deserialize", "crates/volaris-crypto/src/key.rs: decrypt_master_key, argon2id_hash", "crates/volaris-tools/src/decrypt.rs: execute"]}
{"id": "C54", "title": "Decrypting arbitrary input never panics", "statement": "decrypt::execute on arbitrary bytes, with or without a separate header, with any key and any I/O schedule, returns Ok or an error, never panics or loops, and changes nothing but the output.", "quantifier": "every input, key and I/O schedule", "why_tests_cant": "malformed inputs are unbounded", "anchors": ["crates/volaris-tools/src/decrypt.rs: execute", "crates/volaris-crypto/src/stream.rs: DecryptionStreams::initialize", "crates/volaris-crypto/src/cipher.rs: decrypt"]}
{"id": "C55", "title": "Hash parameters are pinned to versions", "statement": "Each supported hashing-algorithm identifier uses exactly one fixed parameter set, different identifiers use different parameter sets, every unsupported version number is an error before any hashing, and the on-disk identifier of every supported algorithm is distinct and is read back as the same algorithm.", "quantifier": "every i32 version number, password and salt", "why_tests_cant": "2^32 version numbers", "anchors": ["crates/volaris-crypto/src/header.rs: HashingAlgorithm::hash, Keyslot::serialize", "crates/volaris-crypto/src/key.rs: argon2id_hash, balloon_hash"]}
{"id": "C56", "title": "An interrupted password change keeps the other keys", "statement": "At every split point of the in-place header rewrite done by change, the header stays readable and all keyslots other than the one being changed are still in it, so their passwords still decrypt the file.", "quantifier": "every file, keyslot being changed, new keyslot and split point", "why_tests_cant": "416 split points times all possible slot contents", "anchors": ["crates/volaris-tools/src/key/change.rs: execute", "crates/volaris-crypto/src/header.rs: write, deserialize"]}
{"id": "C57", "title": "What success of the stream encryption means under arbitrary I/O", "statement": "Whenever encrypt_file returns Ok, under any schedule of short reads, short writes and interruptions, the output is a well-formed encryption of exactly the bytes consumed from the reader, which are a prefix of the input and the whole of it if no transfer was short.", "quantifier": "every input and every I/O schedule", "why_tests_cant": "infinitely many schedules", "anchors": ["crates/volaris-crypto/src/stream.rs: encrypt_file"]}
{"id": "C58", "title": "Packing touches nothing but its output", "statement": "pack::execute changes no file content except that of the output and of the detached header file, and no directory entry except that of its temporary file, where there was nothing before; the packed files are only read.", "quantifier": "every entry list, request, file system state and fault schedule, whether the call succeeds, fails or panics", "why_tests_cant": "all failure points and file system states", "anchors": ["crates/volaris-tools/src/pack.rs: execute"]}
{"id": "C59", "title": "The decrypt command never loses the input", "statement": "However the decrypt command ends, the input file still has its original content, or it was to be erased and the output holds exactly its plaintext under the secret that was supplied, provided that the output is another file than the input and the header file and no transfer is short. If the command succeeds the output holds the plaintext.", "quantifier": "every file system state, path spelling, fault schedule without short transfers, user answers, and every way to end", "why_tests_cant": "all failure points", "anchors": ["crates/volaris-cli/src/subcommands/decrypt.rs: stream_mode"]}
{"id": "C60", "title": "The unpack command panics on every command line", "statement": "For every command line that the parser accepts, the unpack command panics before it has done anything: it asks for verbose as a flag although the option takes a value.", "quantifier": "every command line accepted by the parser, file system state and fault schedule", "why_tests_cant": "all command lines", "anchors": ["crates/volaris-cli/src/subcommands.rs: unpack", "crates/volaris-cli/src/cli.rs: get_matches"]}
{"id": "C61", "title": "Salts, keys and nonces are fresh", "statement": "A successful encryption takes its salt, data key, keyslot nonce and body nonce from pairwise disjoint stretches of the random source and these are the values that the written header contains. Key addition and key change do the same for salt and nonce of the new keyslot. No operation winds the random source back, so values of two operations anywhere in a history come from disjoint stretches, whatever passwords, files and failures there were.", "quantifier": "every random source, request, password, input and history of operations and failures; short transfers excluded where a file is to hold all of its header (otherwise: C34)", "why_tests_cant": "all histories", "anchors": ["crates/volaris-tools/src/encrypt.rs: execute", "crates/volaris-tools/src/key/add.rs: execute", "crates/volaris-tools/src/key/change.rs: execute", "crates/volaris-crypto/src/primitives.rs: gen_salt, gen_nonce, gen_master_key"]}
{"id": "C62", "title": "The hash command reports the digest of each whole file and changes nothing", "statement": "The hash command never panics, changes no file, and returns one result per argument, in order; each result is the digest of the whole content of the file named, as long as no transfer is short. It prints exactly one line per file hashed, with the name given and the digest, in order, and nothing else, however it ends. Without faults it succeeds exactly when every argument is a file.", "quantifier": "every list of arguments, file system state and fault schedule", "why_tests_cant": "all file contents and schedules", "anchors": ["crates/volaris-cli/src/subcommands/hashing.rs: hash_stream"]}
{"id": "C63", "title": "header details shows exactly the header", "statement": "header details never panics and changes nothing, whatever the file contains. Without faults it succeeds exactly when the file starts with a well-formed header, and what it shows (version, algorithm, mode, nonce, authenticated bytes, salt or every keyslot in order) is what that header says. Those lines are all that is printed; if it fails nothing is.", "quantifier": "every file content, path and fault schedule", "why_tests_cant": "all header contents", "anchors": ["crates/volaris-cli/src/subcommands/header.rs: details"]}
{"id": "C64", "title": "The key commands edit only the keyslots of the file they are given", "statement": "However key add, key change, key delete and key verify end, nothing changes except the header of the given file, and that only if the command succeeds (verify changes nothing at all). A file without a version 5 header is refused before anything is asked. If they succeed, the secrets are the ones that the selected sources supply, one after the other, and the keyslots change as specified: one more that the new secret opens to the same data key, one replaced, one gone. They do succeed without faults when the right secrets are typed.", "quantifier": "every file system state, path, key source, user input, random source and fault schedule (what a success means: without short transfers, otherwise C28)", "why_tests_cant": "all combinations of key sources, file contents and failure points", "anchors": ["crates/volaris-cli/src/subcommands/key.rs: add, change, delete, verify", "crates/volaris-cli/src/global/states.rs: get_secret"]}
{"id": "C65", "title": "The header dump, strip and restore commands touch one file and undo each other", "statement": "header dump changes nothing but what is at the output path, and that only if nothing was there or the user consented; if it succeeds the output is exactly the header of the input and the input is unchanged. header strip changes only the header bytes of its file; header restore changes only its output, only if it succeeds, and only where the bytes were zero. Run one after the other without faults on a file the program wrote, they leave the file as it was.", "quantifier": "every file content, path, overwrite choice, user input and fault schedule (what a success of dump and restore means: without short transfers, otherwise C33, C34)", "why_tests_cant": "all file contents, states and failure points", "anchors": ["crates/volaris-cli/src/subcommands/header.rs: dump, strip, restore", "crates/volaris-tools/src/header/dump.rs: execute", "crates/volaris-tools/src/header/strip.rs: execute", "crates/volaris-tools/src/header/restore.rs: execute"]}
{"id": "C66", "title": "The erase command asks before it erases a directory, and erases exactly what it was given", "statement": "The erase command on a file asks nothing, and on success the file is empty and its name gone while nothing else has changed. On a directory it erases something only with the force option or if the user's first answer is yes (a blank answer is no); success means that the directory and everything below is gone; nothing outside changes; directories go only after all files below. On a path that leads nowhere it fails and changes nothing.", "quantifier": "every accepted command line, directory tree, user input, thread interleaving and fault schedule", "why_tests_cant": "all trees, answers, interleavings and failure points", "anchors": ["crates/volaris-cli/src/subcommands/erase.rs: secure_erase", "crates/volaris-cli/src/global/parameters.rs: erase_params", "crates/volaris-cli/src/subcommands.rs: erase"]}
{"id": "C67", "title": "The pack command keeps every source until an archive of it is safely in the output", "statement": "However the pack command ends, and under every schedule of I/O faults: no directory entry changes except new files at the output, the header file and the temporary archive, and entries below the inputs that disappear only if --erase was given and the user agreed; no file loses content except at an output or header place the user agreed to overwrite. If output and header file lie outside the inputs and no transfer is short, then either everything below the inputs is unchanged, or the output (with the header file) decrypts with the supplied secret to a readable archive (all its names storable and different) of every directory and every file below the inputs with its content. If the command succeeds the output holds that archive, and the inputs are unchanged, or with --erase gone. (An output inside a source that is erased is lost with it.)", "quantifier": "all inputs, outputs, command lines, directory trees, contents, answers, I/O schedules and outcomes", "why_tests_cant": "Loss of data depends on where a fault hits among hundreds of I/O steps, on the shape of the tree and on where the output lies relative to the inputs; tests sample a few trees without faults.", "anchors": ["crates/volaris-cli/src/subcommands/pack.rs: execute", "crates/volaris-cli/src/subcommands.rs: pack", "crates/volaris-cli/src/subcommands/erase.rs: secure_erase", "crates/volaris-tools/src/pack.rs: execute"]}
{"id": "C68", "title": "The encrypt command succeeds when nothing is in its way, and the decrypt command brings the content back", "statement": "If the input is a file, output and header file can be written and are other files, the user agrees to overwriting where asked, the key source supplies a non-empty secret and no I/O operation fails, then `encrypt` exits successfully. Whatever file it wrote can then be decrypted: wherever that file (and its header file) turns up, `decrypt` with the same secret succeeds, and its output is byte for byte what the input of `encrypt` was.", "quantifier": "all file contents, directory trees, paths, key sources, answers, flags and random choices on both sides; all places the ciphertext is brought to", "why_tests_cant": "the content, the two directory trees, the key source and the random choices are unbounded; a success and a byte-for-byte equality must hold for all of them at once", "anchors": ["crates/volaris-cli/src/subcommands/encrypt.rs: stream_mode", "crates/volaris-cli/src/subcommands/decrypt.rs: stream_mode", "crates/volaris-cli/src/global/structs.rs"]}
{"id": "C69", "title": "The unpack command overwrites an existing file only after a question", "statement": "volaris unpack changes files only in the output directory; it asks about each member whose path leads to something that exists, and a member that was declined is left alone; a file that exists is overwritten only if the user agreed or forced. Directories appear only on the way to the output directory and to accepted members that are directories, and files only at accepted members that are none; apart from that, only a new temporary file, named by sixteen letters and digits. The screen shows exactly the questions, with the name of the file each is about, and the decisions.", "quantifier": "every archive (also hostile ones), every directory tree, every list of answers, every schedule of I/O faults and every interleaving of the threads (the members asked about: without short transfers)", "why_tests_cant": "archives, directory trees, dialogues and fault schedules are infinite", "anchors": ["crates/volaris-cli/src/subcommands/unpack.rs: unpack", "crates/volaris-tools/src/unpack.rs: execute", "crates/volaris-cli/src/cli/prompt.rs: overwrite_check, get_answer"]}
{"id": "C70", "title": "Packing directories and unpacking the result brings the same tree back", "statement": "When nothing fails, the sources are directories given by relative paths, none inside another, their names are possible file names (no file name ending in a backslash), output and temporary files lie beside them, the key is supplied, and the sources are not to be erased or the command is forced, the pack command succeeds. Its output, on whatever machine and in whatever directory it turns up, is then unpacked successfully by the unpack command with the same key into a directory that does not exist or is empty, and below that directory there is afterwards exactly what was below the sources: every directory, empty ones included, and every file with its content, under the same relative paths, and nothing else.", "quantifier": "every directory tree, every list of source directories, every key source, hashing algorithm and AEAD, every overwrite answer, with and without erasing the sources, every target tree and output path; the header is in the file", "why_tests_cant": "Tests pack and unpack one small tree; the claim is about all trees, all nestings and all contents, and about nothing else appearing.", "anchors": ["crates/volaris-cli/src/subcommands/pack.rs: execute", "crates/volaris-cli/src/subcommands/unpack.rs: unpack", "crates/volaris-tools/src/pack.rs: execute", "crates/volaris-tools/src/unpack.rs: execute"]}
{"id": "C71", "title": "A killed encrypt command has not lost the input", "statement": "If `volaris encrypt` is stopped at any moment (the process is killed, also in the middle of a write, at any point of an erase), the input file is still where it was with its content, or erasing was requested and the output (with the detached header file, if any) is complete and decrypts to that content with the secret that was supplied. At every such moment nothing is touched but output and header path (with consent if something was there) and an input that is to be erased.", "quantifier": "every input, output and parameter setting, every directory tree in which input, output and header are different files, all typed answers, every pattern of faults before the stop, every moment of the run including each byte of each write", "why_tests_cant": "the property is about every prefix of the system calls of every run, not about the result of a run", "anchors": ["crates/volaris-cli/src/subcommands/encrypt.rs: stream_mode", "crates/volaris-cli/src/subcommands/erase.rs: secure_erase", "crates/volaris-tools/src/encrypt.rs: execute", "crates/volaris-tools/src/erase.rs: execute"]}
{"id": "C72", "title": "A killed decrypt command has not lost the encrypted file", "statement": "If `volaris decrypt` is stopped at any moment, the encrypted input is still where it was with its content, or erasing was requested and the output holds the complete plaintext. At every such moment nothing is touched but the output path (with consent if something was there) and an input that is to be erased.", "quantifier": "every input, output and parameter setting, every directory tree in which input, output and header are different files, every pattern of faults before the stop, every moment of the run including each byte of each write (for decrypting: without short transfers)", "why_tests_cant": "the property is about every prefix of the system calls of every run", "anchors": ["crates/volaris-cli/src/subcommands/decrypt.rs: stream_mode", "crates/volaris-cli/src/subcommands/erase.rs: secure_erase", "crates/volaris-tools/src/decrypt.rs: execute"]}
{"id": "C73", "title": "A killed pack command has not lost its sources", "statement": "If `volaris pack` is stopped at any moment, also while it erases the source directories, then everything below the sources is as it was, or erasing was requested, the user agreed, and the output (with the header file) decrypts to a readable archive of every directory and every file with its content. (It may leave the plaintext archive in the directory for temporary files, see C43.)", "quantifier": "every list of inputs, output and parameter setting, every directory tree with output and header outside the sources, every pattern of faults before the stop, every moment of the run (without short transfers, otherwise C12)", "why_tests_cant": "the property is about every prefix of the system calls of every run", "anchors": ["crates/volaris-cli/src/subcommands/pack.rs: execute", "crates/volaris-cli/src/subcommands/erase.rs: secure_erase", "crates/volaris-tools/src/pack.rs: execute", "crates/volaris-tools/src/erase_dir.rs: execute"]}
{"id": "C74", "title": "A killed unpack command has changed nothing outside the output directory", "statement": "If `volaris unpack` is stopped at any moment, whatever the archive contains, then changes are only in the output directory, apart from missing directories on the way to it and a new file in the directory for temporary files; and nothing that was there is gone.", "quantifier": "every archive, output directory, directory tree, list of answers, every pattern of faults, every moment of the run", "why_tests_cant": "the property is about every prefix of the system calls of every run, for hostile archives", "anchors": ["crates/volaris-cli/src/subcommands/unpack.rs: unpack", "crates/volaris-tools/src/unpack.rs: execute"]}
{"id": "C75", "title": "A killed key command locks out nobody whose password is not concerned", "statement": "If `volaris key add`, `key change` or `key delete` is stopped at any moment, also in the middle of writing the header, no file is touched but the one given, everything behind its header is as it was, and every password whose keyslot is not being changed or deleted still decrypts the file.", "quantifier": "every V5 file the program writes, with any number of keyslots, every way to supply the secrets, every pattern of faults before the stop, every moment of the run including each byte of the header write", "why_tests_cant": "a test cannot stop the program after each byte of each write of each possible header", "anchors": ["crates/volaris-cli/src/subcommands/key.rs: add, change, delete", "crates/volaris-tools/src/key/add.rs: execute", "crates/volaris-tools/src/key/change.rs: execute", "crates/volaris-tools/src/key/delete.rs: execute"]}
{"id": "C76", "title": "A killed header command can be repeated", "statement": "If `volaris header dump`, `strip` or `restore` is stopped at any moment, nothing is changed but the header area of the file (the output, for dump); what lies behind the header is as it was; and the command can be run again to complete it.", "quantifier": "every file, every header version, every pattern of faults before the stop, every moment of the run including each byte of each write (that the remains are stuck: without short transfers)", "why_tests_cant": "a test cannot stop the program after each byte of each write", "anchors": ["crates/volaris-cli/src/subcommands/header.rs: dump, strip, restore", "crates/volaris-tools/src/header/strip.rs: execute", "crates/volaris-tools/src/header/restore.rs: execute", "crates/volaris-tools/src/header/dump.rs: execute"]}
{"id": "C77", "title": "What is written on the command line is what is done", "statement": "For every way to write a command line of `encrypt`, `decrypt`, `erase`, `pack` or `hash` (options by long name or letter, values attached or in the next word, options and file names mixed, `--` before file names that begin with `-`, `-e` for `encrypt`), the program does exactly what the line says: it works on the files named, in their order; the key comes from the key file, else the environment, else it is made up (encrypt, pack) or asked for (decrypt); and header file, force, hash, algorithms and numbers of passes and words are those given, or their defaults.", "quantifier": "every list of words that writes a set of options with arbitrary values and arbitrary file names for the command, every environment", "why_tests_cant": "there are infinitely many file names, values and ways to write and mix them; a test tries a few lines", "anchors": ["crates/volaris-cli/src/cli.rs: get_matches", "crates/volaris-cli/src/main.rs: main", "crates/volaris-cli/src/subcommands.rs: encrypt, decrypt, erase, pack, hash_stream", "crates/volaris-cli/src/global/parameters.rs: parameter_handler, pack_params, erase_params, algorithm", "crates/volaris-cli/src/global/states.rs: Key::init"]}
{"id": "C78", "title": "Every command and option can be used as its help text says", "statement": "The switches (`--force`, `--hash`, `--argon`, `--aes`, `--verbose`, `--zstd`, `--recursive`, `pack --erase`) can be given without a value, and each of the commands that the program implements can be called.", "quantifier": "all command lines", "why_tests_cant": "the claim is about all lines in which a switch stands, at any place, and about every line that begins with the name of a command", "anchors": ["crates/volaris-cli/src/cli.rs: get_matches", "crates/volaris-cli/src/main.rs: main"]}
{"id": "C79", "title": "A build with debug assertions behaves like a release build", "statement": "For every command line, the program does the same whether or not it was built with debug assertions.", "quantifier": "every list of words, every world", "why_tests_cant": "it is about two builds and all lines", "anchors": ["crates/volaris-cli/src/global/parameters.rs: parameter_handler", "crates/volaris-cli/src/global/states.rs: Key::init", "crates/volaris-cli/src/cli.rs: get_matches"]}
{"id": "C80", "title": "Encrypting and decrypting on the command line brings a file back", "statement": "Two command lines, however they are written, `encrypt X Y` and then `decrypt Y Z`, with the same secret in key files or in the environment: both succeed; after the first, X is gone and Y decrypts to what X held; after the second, Z (a new name, or X again) holds exactly what X held, Y is gone, and no other name, file or directory has changed.", "quantifier": "all ways to write the two lines with any options (except a detached header), all file contents up to the limit of the block counter, all disks with X in the working directory and Y and Z free", "why_tests_cant": "it is about all pairs of lines, contents and disks; a test runs one pair", "anchors": ["crates/volaris-cli/src/cli.rs: get_matches", "crates/volaris-cli/src/subcommands/encrypt.rs: stream_mode", "crates/volaris-cli/src/subcommands/decrypt.rs: stream_mode", "crates/volaris-cli/src/subcommands/erase.rs: secure_erase"]}
{"id": "C81", "title": "After a power failure the data is in the input or in the output", "statement": "If the machine loses power during or soon after `encrypt`, `decrypt` or `pack`, then the content of the input (of the sources) is still there in the input, or the complete result is on the disk.", "quantifier": "every command, every disk, every point at which the power fails, every selection of written data that has not reached the disk (for packing: without short transfers)", "why_tests_cant": "tests do not cut the power, and the states of a disk that has not been synchronised are too many to try", "anchors": ["crates/volaris-tools/src/storage.rs: FileStorage", "crates/volaris-cli/src/subcommands/encrypt.rs: stream_mode", "crates/volaris-cli/src/subcommands/decrypt.rs: stream_mode", "crates/volaris-cli/src/subcommands/pack.rs: execute", "crates/volaris-cli/src/subcommands/erase.rs: secure_erase"]}
{"id": "C82", "title": "Command lines only touch what they mention, over any history", "statement": "Give the tool any sequence of command lines, in any states of the machine between them, where any of them may be refused, fail, panic or be killed at any moment. Every entry of the disk that no line mentions (itself or a directory above it) is still there; every file none of whose names is mentioned keeps its content; at places that are not mentioned nothing new appears except files right in the temporary directory; no file gets a second name; and the disk remains a tree.", "quantifier": "all sequences of command lines of both builds, all thread orders, answers, keys, random numbers, I/O faults and kill points of each line, all disks that form a tree", "why_tests_cant": "it is about all histories and all crash points in them; a test runs a few lines to their end", "anchors": ["crates/volaris-cli/src/main.rs: main", "crates/volaris-cli/src/cli.rs: get_matches", "crates/volaris-cli/src/subcommands/encrypt.rs: stream_mode", "crates/volaris-cli/src/subcommands/erase.rs: secure_erase", "crates/volaris-cli/src/subcommands/pack.rs: execute", "crates/volaris-tools/src/storage.rs: FileStorage"]}
{"id": "C83", "title": "Careful command lines never lose a file's content, over any history", "statement": "A file holds some content. Give the tool any sequence of command lines, each of which either encrypts or decrypts any file or packs any directories, with one and the same secret, to a name that is free at that time (and not inside what is packed), with or without the request to erase what was read; or only hashes or unpacks; or does not mention a file that holds the content. Any line may fail or be killed at any moment. At the end there is a file from which the content comes back by decrypting with the secret and taking files out of archives, as often as necessary.", "quantifier": "all sequences of such lines, however they are written, all key files or environments with the secret, all kill points and I/O failures (short transfers excepted, see C12), all disks that form a tree, all contents that are not themselves encrypted with the secret", "why_tests_cant": "it is about all histories, all crash points and all contents; a test kills one command at a few points", "anchors": ["crates/volaris-cli/src/main.rs: main", "crates/volaris-cli/src/subcommands/encrypt.rs: stream_mode", "crates/volaris-cli/src/subcommands/decrypt.rs: stream_mode", "crates/volaris-cli/src/subcommands/erase.rs: secure_erase"]}
{"id": "C84", "title": "Encrypting a file shows nothing of it but its length", "statement": "Run the same encrypt command on two machines that differ only in the contents of files, not in their lengths, and have the same key. If the cipher's results show nothing but the length of what is encrypted, the runs cannot be told apart: they end in the same way, print the same, make the same changes to the disk with the same bytes in the same order, and leave disks that look the same, at the end and whenever they are killed before.", "quantifier": "all pairs of machines, all keys and options, erasing, detached headers and hashing included, all I/O schedules, all kill points", "why_tests_cant": "it is about pairs of runs; a test of one run cannot tell that no byte depends on the plaintext around the cipher", "anchors": ["crates/volaris-cli/src/subcommands/encrypt.rs: stream_mode", "crates/volaris-tools/src/encrypt.rs: execute", "crates/volaris-crypto/src/stream.rs: EncryptionStreams::encrypt_file", "crates/volaris-tools/src/overwrite.rs: execute"]}
{"id": "C85", "title": "Passwords reach the disk only through the password hash", "statement": "Run the same command (encrypt, decrypt, pack, or one that adds, changes, deletes or verifies a key) on two machines that differ in the passwords or in the contents of the key files. If the password hash gives the same for both, the runs cannot be told apart: same outcome, same lines on the screen, same changes to the disk with the same bytes in the same order, disks that look the same at every moment.", "quantifier": "all commands that ask for a password, all pairs of passwords and key files, all I/O schedules, all kill points", "why_tests_cant": "it is about pairs of runs; a test of one run cannot tell that no byte depends on the password around the hash", "anchors": ["crates/volaris-cli/src/global/states.rs: Key::get_secret", "crates/volaris-crypto/src/key.rs: argon2id_hash, balloon_hash", "crates/volaris-tools/src/encrypt.rs: execute", "crates/volaris-tools/src/decrypt.rs: execute", "crates/volaris-tools/src/key/add.rs: execute", "crates/volaris-tools/src/key/change.rs: execute", "crates/volaris-tools/src/key/delete.rs: execute", "crates/volaris-tools/src/key/verify.rs: execute"]}
{"id": "C86", "title": "A command line depends on no file that it does not mention", "statement": "Change the contents of files in any way, except of those at or below a path in the command line. The line then does exactly what it did before: same outcome, same output, same changes to the disk with the same bytes in the same order, at every moment.", "quantifier": "all command lines, release and debug builds, all disks and all changes of contents elsewhere, all I/O schedules, all kill points", "why_tests_cant": "it is about pairs of runs, for every line and every change elsewhere", "anchors": ["crates/volaris-cli/src/main.rs: main", "crates/volaris-cli/src/cli.rs: get_matches", "crates/volaris-tools/src/storage.rs: FileStorage"]}
{"id": "C87", "title": "A generated passphrase is on the screen before anything changes", "statement": "Let encrypt, pack, or adding or changing a key generate the passphrase. If the command changes anything on the disk or succeeds, it has shown the passphrase before the first change; if it is killed at any moment, the disk is as it was or the passphrase has been shown. What encrypt writes decrypts with the passphrase that was shown, and if the input was erased then the output decrypts to it with that passphrase, whatever faults occur without short transfers.", "quantifier": "all commands that generate a passphrase, all options, random numbers, disks, I/O schedules and kill points", "why_tests_cant": "a passphrase that is printed after the input is gone, or that is not the one used, shows only for some faults and some random numbers", "anchors": ["crates/volaris-cli/src/global/states.rs: Key::get_secret", "crates/volaris-crypto/src/key.rs: generate_passphrase", "crates/volaris-cli/src/subcommands/encrypt.rs: stream_mode", "crates/volaris-cli/src/subcommands/pack.rs: execute", "crates/volaris-cli/src/subcommands/key.rs: add, change"]}
{"id": "C88", "title": "Nothing that exists is overwritten or erased before the user has been asked about it and said yes", "statement": "Without --force: if something is at the output path of encrypt, decrypt, pack or header dump, then before the first change to the disk the question whether to overwrite it has been printed, with the name as typed, and the first answer read after it was yes; a kill at any moment leaves the disk as it was or comes after that. If something is at the path for the detached header, then the question naming it was printed and answered with yes, or the command fails and only the output has changed. A directory given to erase, and the sources of pack --erase, are untouched unless the question about erasing a directory was printed and answered with yes, for which an empty line does not count.", "quantifier": "all commands, names, options without --force, disks, answers, I/O schedules and kill points", "why_tests_cant": "a question that names another file, comes after the damage, or whose answer is taken from the wrong line shows only for some sequences of answers and faults", "anchors": ["crates/volaris-cli/src/cli/prompt.rs: get_answer, overwrite_check", "crates/volaris-cli/src/subcommands/encrypt.rs: stream_mode", "crates/volaris-cli/src/subcommands/decrypt.rs: stream_mode", "crates/volaris-cli/src/subcommands/pack.rs: execute", "crates/volaris-cli/src/subcommands/header.rs: dump", "crates/volaris-cli/src/subcommands/erase.rs: secure_erase"]}
{"id": "C89", "title": "The key commands say which key they want before they take one", "statement": "If a key is to be typed, key add, key change, key del and key verify take no password before the line that says which key is wanted (old, new, or the key) is on the screen, and nothing has been modified then; between the line for the old key and the line for the new key exactly one password is taken. With keys from files, standard input or the environment nothing is printed.", "quantifier": "all files, keys, passwords typed, I/O schedules and outcomes", "why_tests_cant": "a prompt that comes too late or names the wrong key makes the user type the wrong secret, but the run looks the same for users who know the order", "anchors": ["crates/volaris-cli/src/subcommands/key.rs: add, change, delete, verify", "crates/volaris-cli/src/global/states.rs: get_secret", "crates/volaris-cli/src/cli/prompt.rs: get_password"]}
{"id": "C90", "title": "Whatever file is decrypted, what comes out was encrypted as it is", "statement": "Take any set of files that were really encrypted and any file at all with a header of version 3, 4 or 5: with blocks removed, repeated, reordered or taken from other files, with another header or other keyslots. If no AEAD forgery is among what decryption presents, then decrypting it with any password, under every I/O schedule, either succeeds and writes exactly the whole plaintext of one of those files, namely of one whose authenticated header bytes and data key are those found, or fails having written a beginning of one of their plaintexts, or nothing. The same holds with a separate header and for the decrypt command. For versions 1 and 2 it is false: from every such file in stream mode with more than a block a file can be made without any secret that decrypts without error to a single block cut out of the middle.", "quantifier": "all sets of encrypted files, file contents, passwords, header files, requests, worlds and I/O schedules", "why_tests_cant": "the ways to damage or recombine encrypted files cannot be enumerated, and mixtures of several genuine files pass every test made of one file", "anchors": ["crates/volaris-crypto/src/stream.rs: DecryptionStreams::decrypt_file", "crates/volaris-tools/src/decrypt.rs: execute", "crates/volaris-crypto/src/header.rs: Header::deserialize, create_aad", "crates/volaris-cli/src/subcommands/decrypt.rs: stream_mode"]}
{"id": "C91", "title": "Every command line comes to an end, and only in known ways", "statement": "Whatever the line, the disk, the user's answers, the random numbers and the faults: a command line that is not refused comes to an end, with success, with a reported error, or in exactly one of three other ways. It is a line for unpacking, which panics at once with nothing changed; or the last question, about overwriting a file that the line names or about erasing a directory, was shown and the first answer given to it is no, and the program exits with code 0 having read nothing after that answer; or the environment has no passphrase and one of the random numbers for the passphrase that was to be made up points behind the end of the word list, and the program panics. The same is stated for each command, also for those for headers and keys, which never panic whatever the file contains.", "quantifier": "all command lines, machines, orders of threads, disks, file contents, answers, random numbers, schedules of faults and short transfers", "why_tests_cant": "no set of runs shows that a loop ends for all inputs or that no input reaches a panic", "anchors": ["crates/volaris-cli/src/main.rs: main", "crates/volaris-cli/src/subcommands/encrypt.rs: stream_mode", "crates/volaris-cli/src/subcommands/decrypt.rs: stream_mode", "crates/volaris-cli/src/subcommands/pack.rs: execute", "crates/volaris-cli/src/subcommands/erase.rs: secure_erase", "crates/volaris-cli/src/subcommands/key.rs: add, change, delete, verify", "crates/volaris-cli/src/subcommands/header.rs: details, dump, restore, strip", "crates/volaris-cli/src/cli/prompt.rs: get_answer, overwrite_check"]}
{"id": "C92", "title": "What the commands show on the screen, and whose digest it is", "statement": "Under every schedule of faults and however the command ends, encrypting, decrypting and packing show exactly these lines, in this order: the question whether to overwrite the output, which comes if and only if there is something at its name and overwriting is not forced; what belongs to the secret (a generated passphrase, once, or remarks on passwords that are empty or not confirmed); when a header is detached, the question about its file; if and only if --hash is given, one line with a digest, always on success; and, for packing with erasing, at most one question for each directory. Unpacking shows what belongs to the secret; then, for one member of the archive after the other, the question whether to overwrite, never if that is forced, and the decision (a member is skipped only after a question, and a question without an answer is the end); then the digest. On success without short transfers, the digest shown by encrypting and packing is that of what is in the output file afterwards, the one shown by decrypting is that of the input file, the one shown by unpacking is that of the archive as it is afterwards; so the line of encrypting is the same line that hashing the encrypted file or decrypting it with --hash shows later. The key commands show, for each key, the line that asks for it, if and only if it is typed (unless they end before), and what belongs to it; dumping a header shows at most the question about the output, restoring and stripping show nothing, erasing shows at most the question about a directory, and nothing for a file.", "quantifier": "all machines, disks, file names, parameters, answers, typed passwords, schedules of faults; the digest part: all schedules without short transfers", "why_tests_cant": "the transcript depends on every answer, fault and file; no set of runs shows that nothing else is ever printed or that the digest is always taken after the last write", "anchors": ["crates/volaris-cli/src/subcommands/encrypt.rs: stream_mode", "crates/volaris-cli/src/subcommands/decrypt.rs: stream_mode", "crates/volaris-cli/src/subcommands/pack.rs: execute", "crates/volaris-cli/src/subcommands/hashing.rs: hash_stream", "crates/volaris-cli/src/subcommands/key.rs: add, change, delete, verify", "crates/volaris-cli/src/subcommands/header.rs: dump, restore, strip", "crates/volaris-cli/src/subcommands/erase.rs: secure_erase", "crates/volaris-cli/src/cli/prompt.rs: get_answer, overwrite_check", "crates/volaris-cli/src/global/states.rs: Key::get_secret"]}
{"id": "C93", "title": "A killed encrypt, decrypt or pack can be started again (false when it was erasing its input)", "statement": "However often encrypting, decrypting or packing is started and killed, at whatever moments and with whatever passwords, starting it once more, without faults and with the consent to overwrite, succeeds and gives the same as if it had never been started before: encrypting leaves an output that decrypts, with the secret of that time, to what the input held in the beginning; decrypting leaves what was encrypted; packing leaves an output that decrypts to an archive of what was below the inputs in the beginning. This is false when the input is erased: a command killed after it has emptied the input and before it has removed its name must not be repeated, since repeating it overwrites the only copy with an encryption of nothing (encrypt), with nothing (decrypt), or with an archive of what is left (pack). It holds unless one of the attempts was to erase the input and had its output complete when it was killed.", "quantifier": "all machines, disks, file names, parameters, numbers of attempts, moments of the kills, faults during the attempts (no short transfers), passwords and answers", "why_tests_cant": "the disk after several kills depends on every moment and fault; tests can try a few, and the moment that loses the file lies between two system calls", "anchors": ["crates/volaris-cli/src/subcommands/encrypt.rs: stream_mode", "crates/volaris-cli/src/subcommands/decrypt.rs: stream_mode", "crates/volaris-cli/src/subcommands/pack.rs: execute", "crates/volaris-cli/src/subcommands/erase.rs: secure_erase", "crates/volaris-tools/src/storage.rs: Storage::create_file, remove_file"]}
{"id": "C94", "title": "Directories packed with one line come back, as an archive, with a decrypt line", "statement": "A pack line whose key is in a key file or in the environment, and that is not to erase or need not ask about it, succeeds when no fault happens and the names are free. Its output can be given later, on any machine and under any name, to a decrypt line with the same key: that line succeeds and leaves a zip archive that holds every directory and every file below the inputs, as they were when packed, under the paths by which they were named, and nothing else. The pack line touches nothing but its output and, when erasing, exactly the inputs; the decrypt line nothing but its two files. (This is the only way back on the command line: the unpack command always panics, C60.)", "quantifier": "all machines, disks, trees of directories, lists of inputs, options and their order, lawful cryptographic primitives and zip codes, places of the key, later machines and states", "why_tests_cant": "whole sessions of two command lines over arbitrary trees, options and later disks; tests fix one tree and one line", "anchors": ["crates/volaris-cli/src/subcommands/pack.rs: execute", "crates/volaris-cli/src/subcommands.rs: pack, decrypt", "crates/volaris-cli/src/subcommands/decrypt.rs: stream_mode", "crates/volaris-tools/src/pack.rs: execute", "crates/volaris-tools/src/decrypt.rs: execute"]}
{"id": "C95", "title": "Exit status 0 means that the work is done (false after a declined question)", "statement": "A command line ends with the exit status 0, 1 or 101. When it ends with 0, the work that the line asks for is done: the file is encrypted or decrypted for the key the line asks for and the input is gone; the archive is in the output and the sources are erased if that was asked for; what is to be erased is gone; the digests have been shown. The code also leaves the status 0 when the user declines a question. So this holds whenever the line has the option not to ask or there is nothing on standard input (the end of the input in front of a question is an error, status 1); otherwise status 0 also covers a refusal, after which the inputs are as they were.", "quantifier": "all command lines, machines, disks, key sources, answers on standard input and schedules of failing or interrupted operations (short transfers excluded where noted)", "why_tests_cant": "scripts rely on the status of every run, with every disk, answer and fault; tests look at a handful", "anchors": ["crates/volaris-cli/src/main.rs: main", "crates/volaris-cli/src/cli/prompt.rs: get_answer, overwrite_check", "crates/volaris-cli/src/subcommands/encrypt.rs: stream_mode", "crates/volaris-cli/src/subcommands/erase.rs: secure_erase", "crates/volaris-cli/src/subcommands/pack.rs: execute", "crates/volaris-cli/src/subcommands/hashing.rs: hash_stream"]}
{"id": "C96", "title": "Independent commands at the same time do what each does alone", "statement": "Any number of encrypt, decrypt, hash, erase, pack (without erasing the directories), key and header commands run at the same time on one disk, each with its own input, random bytes, outcomes of system calls and screen. If no command is to write or erase what another one uses (the same place, or another name of the same file; a command that packs uses all that is in the directories named, and a temporary file with a random name), then each of them, at every moment, is where it would be after as many steps alone: the same on its screen, the same at every place it names. Every command comes to its end after a number of its own steps, whatever the others do, and then its outcome, its screen and what is at its places are as after the command run alone. What no command is to write is as it was at every moment. The files that a command uses are those named on its line.", "quantifier": "every number of commands and their arguments, every disk, every outcome of their system calls, every order in which the operating system lets them make their steps", "why_tests_cant": "A test sees a few interleavings of a few commands; the number of interleavings is unbounded.", "anchors": ["crates/volaris-cli/src/subcommands/encrypt.rs: stream_mode", "crates/volaris-cli/src/subcommands/decrypt.rs: stream_mode", "crates/volaris-cli/src/subcommands/hashing.rs: hash_stream", "crates/volaris-cli/src/subcommands/erase.rs: secure_erase", "crates/volaris-cli/src/subcommands/pack.rs: execute", "crates/volaris-tools/src/pack.rs: execute", "crates/volaris-tools/src/storage.rs: FileStorage"]}
{"id": "C97", "title": "Success of a command among others (false when two write the same output)", "statement": "Commands run at the same time on one disk. When one that encrypts has succeeded, its output decrypts, for the key its line asks for, to what its input was; when one that decrypts has succeeded, its output holds what was encrypted in its input; when one that packs has succeeded, its output decrypts to an archive of what the directories held, and they are unchanged. This is false in general: the check whether the output exists and its creation are two system calls, and creating falls back to truncating. Two encrypt commands with the same output, which does not exist yet, can both succeed without a question, and both erase their inputs, one of which is then lost. It holds if no command is to write or erase what another one uses.", "quantifier": "every number of commands, every disk, every fault schedule without short transfers, every interleaving", "why_tests_cant": "The window between the check and the creation is small; a test would have to hit it.", "anchors": ["crates/volaris-cli/src/subcommands/encrypt.rs: stream_mode", "crates/volaris-cli/src/subcommands/decrypt.rs: stream_mode", "crates/volaris-cli/src/cli/prompt.rs: overwrite_check", "crates/volaris-tools/src/storage.rs: FileStorage::create_file"]}
{"id": "C98", "title": "Key operations on one file at the same time (an update can be lost)", "statement": "Several processes add, change, delete or verify passwords of one file at the same time. The property wanted: all operations that report success have taken effect, as if they had been made one after the other. This is false: each operation reads the header, decides, and writes the whole header back. Two processes that add a password each can both report success although one of the new passwords is refused afterwards, and a password whose deletion was reported as a success still opens the file if another operation had read the header before. What does hold, for any number of calls in any interleaving: at every moment the file is that of some of the successful calls, made one after the other on the list of passwords, each of them succeeding there; of the passwords in play exactly those of the resulting list decrypt the file, to the same plaintext; only the header changes; a call that does not succeed and one that only verifies change nothing; a call in whose time nobody else changes the file takes effect on the list as it was; every call ends, with success or an error, after at most seven steps of its own.", "quantifier": "every number of calls and their arguments, every file with a V5 header whose keyslots belong to a list of passwords, every schedule of failing or interrupted operations without short transfers, every interleaving of their system calls", "why_tests_cant": "A test sees a few interleavings; the window between reading and writing the header lasts as long as the password hashing, but which updates survive depends on the order of every read and write.", "anchors": ["crates/volaris-tools/src/key/add.rs: execute", "crates/volaris-tools/src/key/change.rs: execute", "crates/volaris-tools/src/key/delete.rs: execute", "crates/volaris-tools/src/key/verify.rs: execute"]}
{"id": "C99", "title": "Reading a file while its keys are changed", "statement": "While any number of processes add, change, delete or verify passwords of an encrypted file, others decrypt it or dump its header. Each reading call returns what it would return alone, and writes what it would write alone, on the file as it was at one moment of the call, right before one of its own steps; and that is a state that some of the key operations successful by then lead to. So a password that is on the list and that no operation takes away decrypts the file at any time, to the same plaintext; whatever a password in play decrypts successfully is that plaintext; a password that is not on the list and that no operation puts there is refused at any time and nothing is written; a dumped header is one the file had. The reading calls do not disturb the key operations.", "quantifier": "every number of calls and their arguments, every file with a V5 header whose keyslots belong to a list of passwords, every schedule of failing or interrupted operations without short transfers in the key operations (in the reading calls with short transfers, except where the plaintext or the header is concerned), every interleaving of their system calls", "why_tests_cant": "A reading call makes as many system calls as the file has blocks, and a key operation can write the header between any two of them; a test sees a few of these interleavings.", "anchors": ["crates/volaris-tools/src/decrypt.rs: execute", "crates/volaris-tools/src/header/dump.rs: execute", "crates/volaris-tools/src/key/add.rs: execute", "crates/volaris-tools/src/key/change.rs: execute", "crates/volaris-tools/src/key/delete.rs: execute"]}
{"id": "C100", "title": "A killed erase command can be started again", "statement": "If `volaris erase` is killed, any number of times and at any moments, nothing but what it was given has changed: every file is as it was or empty, a name never disappears before the content, and no directory before all the files. When the command is then started again and nothing fails (and the question about a directory is answered with yes), the content and the names of all the files are gone, and so is the directory, unless it was given by a path that contains `..`: such a path may lead through a directory that is gone already, and then the empty directories stay.", "quantifier": "every file or directory tree, every number of attempts, every accepted command line for each of them, every fault schedule, every thread interleaving, every moment of the runs", "why_tests_cant": "The moments are between any two system calls of several threads in any interleaving, and the attempts can be repeated any number of times.", "anchors": ["crates/volaris-tools/src/erase.rs: execute", "crates/volaris-tools/src/erase_dir.rs: execute", "crates/volaris-cli/src/subcommands/erase.rs: secure_erase"]}
{"id": "C101", "title": "Whatever other programs do to the disk at the same time, a command changes only what its command line names", "statement": "A command (encrypt, decrypt, hash, erase, pack, unpack, key and header management) runs while other programs create, rename, change and delete files as they like. It adds or removes a name only at places that its command line names, at that moment, as those to be written or erased (with everything in a directory that is to be erased or to be unpacked into), or at the place of its temporary file; unpacking also makes the directories that are missing on the way to the output directory; it changes only the content of files that it met at such a place. Digests, key verification and header display change nothing at all. The same holds for any number of commands of this program at once, also when they use the same files.", "quantifier": "every command with every argument, every disk before each of its system calls, every fault schedule; every set of commands, every interleaving", "why_tests_cant": "The other programs can do anything between any two system calls, so the space of executions has no bound; a test sees one of them.", "anchors": ["crates/volaris-cli/src/subcommands/encrypt.rs: stream_mode", "crates/volaris-cli/src/subcommands/decrypt.rs: stream_mode", "crates/volaris-cli/src/subcommands/pack.rs: execute", "crates/volaris-cli/src/subcommands/erase.rs: secure_erase", "crates/volaris-tools/src/storage.rs: create_file, write_file, remove_file"]}
{"id": "C102", "title": "Decryption writes only authenticated plaintext, in order, whatever other programs do to the disk at the same time", "statement": "While a file is decrypted, other programs replace the input, the header file or the key file between any two reads, mix blocks of different files, or write to the output. As long as nothing was forged under a data key that the secret recovers, what the command itself writes is, from position 0 of the file with the name of the output, which it has emptied, and in order, a beginning of the plaintext of one file that was really encrypted; it writes to no other file. It reports success only if it has written all of that plaintext, and begins to erase the input only after that.", "quantifier": "every decrypt command with every argument, every disk before each of its system calls, every fault schedule, every set of files ever encrypted, every point at which the command is stopped", "why_tests_cant": "The other programs can do anything between any two system calls, so header and blocks can come from different files and different moments; a test sees one such history.", "anchors": ["crates/volaris-cli/src/subcommands/decrypt.rs: stream_mode", "crates/volaris-tools/src/decrypt.rs: execute", "crates/volaris-crypto/src/stream.rs: decrypt_file", "crates/volaris-crypto/src/header.rs: deserialize"]}
{"id": "C103", "title": "Encryption leaves a complete encrypted file of what it read before it reports success or begins to erase, whatever other programs do to the disk at the same time", "statement": "While a file is encrypted, other programs rename files, change the input between any two reads, or write to the output. What the command itself writes is a header and then, in order, a body, to the files with the names that the command line gives, which it has emptied; it writes to no other file, empties no other, and removes no name before it begins to erase. It reports success, and begins to erase the input, only when header and body together are an encrypted file that opens, with the secret that was supplied, to something every block of which was in the input, at its place, when it was read (reads and writes not being cut short). If the input was not changed, this is the input.", "quantifier": "every encrypt command with every argument, with the header in the file or elsewhere, every disk before each of its system calls, every fault schedule without short transfers, every point at which the command is stopped", "why_tests_cant": "The other programs can do anything between any two system calls, so the blocks can come from different moments; a test sees one such history.", "anchors": ["crates/volaris-cli/src/subcommands/encrypt.rs: stream_mode", "crates/volaris-tools/src/encrypt.rs: execute", "crates/volaris-crypto/src/stream.rs: encrypt_file", "crates/volaris-crypto/src/header.rs: write"]}
{"id": "C104", "title": "Commands that encrypt and erase one file at the same time, each to its own output, never lose what it held", "statement": "Start any number of commands at the same time on one disk. Any number of them encrypt the same file, with any secrets and options, each to an output (and header file) of its own, and erase it or not; the others have nothing to do with the file. Let the operating system interleave them in any way, let calls fail, and stop at any moment: the file is still where it was with its content, or there is an output which opens, with a secret that its command was supplied with, to exactly this content. This needs an output for each: the same command line started twice can lose everything, with the first reporting success and the output decrypting to an empty file.", "quantifier": "all sets of commands, disks, interleavings, fault schedules without short transfers and moments; all contents", "why_tests_cant": "The number of interleavings of the system calls of two commands is astronomical, and the one that loses data is one of few; a test sees one interleaving.", "anchors": ["crates/volaris-cli/src/subcommands/encrypt.rs: stream_mode", "crates/volaris-cli/src/subcommands/erase.rs: secure_erase", "crates/volaris-tools/src/encrypt.rs: execute", "crates/volaris-tools/src/overwrite.rs: execute"]}
{"id": "C105", "title": "Commands that encrypt, decrypt and erase one file at the same time, each to its own output, never lose what it held", "statement": "Start any number of commands at the same time on one disk. Any number of them encrypt or decrypt the same file, with any secrets and options, each to an output (and, if encrypting, header file) of its own, and erase it or not; the others have nothing to do with the file, and the header file that a decryption reads does not change. Let the operating system interleave them in any way, let calls fail, and stop at any moment: the file is still where it was with its content, or there is an output of an encryption which opens, with a secret that its command was supplied with, to exactly this content, or an output of a decryption which holds exactly what this content decrypts to with a secret of its command. This needs an output for each: the same decrypt line started twice can lose both the encrypted file and the plaintext, with the first reporting success.", "quantifier": "all sets of commands, disks, interleavings, fault schedules without short transfers and moments; all contents", "why_tests_cant": "The number of interleavings of the system calls of two commands is astronomical, and the one that loses data is one of few; a test sees one interleaving.", "anchors": ["crates/volaris-cli/src/subcommands/decrypt.rs: stream_mode", "crates/volaris-cli/src/subcommands/encrypt.rs: stream_mode", "crates/volaris-cli/src/subcommands/erase.rs: secure_erase", "crates/volaris-tools/src/decrypt.rs: execute", "crates/volaris-tools/src/overwrite.rs: execute"]}
{"id": "C106", "title": "Commands that pack, encrypt, decrypt and erase one file at the same time, each to its own output, never lose what it held", "statement": "Start any number of commands at the same time on one disk. Any number of them pack directories with the same file somewhere below, and others encrypt or decrypt this file, with any secrets and options, each to an output, header file and temporary file of its own, and each erases what it read or not; the others have nothing to do with the file. Let the operating system interleave them in any way, let calls fail, and stop at any moment: the file is still where it was with its content, or there is an output of a packing which opens, with a secret that its command was supplied with, to an archive with a member of the path of the file and exactly this content, or an output of an encryption or of a decryption as in C104 and C105. In particular `pack --erase` erases no file that its archive does not hold, though it lists the directories, reads the files and erases them at different moments. This needs an output for each: the same `pack --erase` line started twice can lose everything, with the first reporting success.", "quantifier": "all sets of commands, disks, directories, interleavings, fault schedules without short transfers and moments; all contents", "why_tests_cant": "Between listing a directory, reading its files and erasing them any number of system calls of other commands can happen; a test sees one interleaving.", "anchors": ["crates/volaris-cli/src/subcommands/pack.rs: execute", "crates/volaris-tools/src/pack.rs: execute", "crates/volaris-tools/src/encrypt.rs: execute", "crates/volaris-cli/src/subcommands/erase.rs: secure_erase", "crates/volaris-tools/src/erase_dir.rs: execute", "crates/volaris-tools/src/overwrite.rs: execute"]}
{"id": "C107", "title": "Unpacking over what is already there overwrites exactly the packed files", "statement": "Pack directories and unpack the result anywhere, later, on any machine, told to overwrite, into a directory that already holds things: an earlier unpacking, an older version of the tree, anything in which no file is in the place of a packed directory, no directory is in the place of a packed file and no two of the files to be overwritten are one file. If everything is in place the command succeeds, and then every packed directory is there and every packed file has exactly the packed content, however long the old one was; everything that was there before is still there; nothing is new but what was packed; and every file on the disk that is not in the place of a packed file has its old content. All this holds as well if unpacking was started any number of times before, with or without being told to overwrite, and was killed at any moment each time: the next attempt completes the tree, and the only other things left behind are temporary files. And unpacking once more after it has succeeded changes no name and no content.", "quantifier": "all trees packed, all trees unpacked into, all numbers of attempts and moments at which they are killed (no transfer being short), secrets, options, primitives and zip implementations that obey their laws", "why_tests_cant": "Whether old content shows through, or a file beside the packed ones is touched, depends on every combination of an old and a new tree; a test has a few.", "anchors": ["crates/volaris-cli/src/subcommands/unpack.rs: unpack", "crates/volaris-tools/src/unpack.rs: execute", "crates/volaris-tools/src/storage.rs: FileStorage"]}
