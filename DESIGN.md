# A Lean 4 model of opencoff/sigtool

Everything is under `lean/Verif`. The code in `/repo` is read as text; it is never built or run here, so the
only tie between model and code is the reading recorded in the comment on each definition.

## 1. Shape of the model

`P : Prims` (cryptography), `Y : Yaml` (the YAML library) and `pem.Decode` are parameters of the model; everything
written in `/repo` on top of them is a definition.

| Module | Models | Source |
|---|---|---|
| `Base` | bytes, big-endian words, Go outcomes (`ok`/`err`/`panic`), errors and `errors.Is` | `sign/errors.go` |
| `Prims` | cryptographic primitives as parameters, their assumed laws, a concrete instance meeting the laws | Go std, x/crypto |
| `IO` | `io.Reader`, `io.ReadFull`, `io.Writer`, `fullwrite` | `sign/encrypt.go:847` |
| `Proto` | protobuf header codec, byte by byte | `internal/pb/*` |
| `Curve`, `Prime` | key types, Ed25519 to Curve25519 conversion; 2^255-19 is prime (Lucas certificate) | `sign/keys.go` |
| `Base64`, `Yaml`, `Keys` | text encoding and (de)serialisation of keys and signatures | `sign/keys.go`, `sign/sign.go` |
| `Sign` | messages, files, signatures | `sign/sign.go`, `sign/iomisc.go` |
| `Ssh` | SSH public keys, authorized_keys, private keys | `sign/ssh.go` |
| `Encrypt`, `Decrypt`, `Stream` | container writer and reader, streaming | `sign/encrypt.go`, `sign/stream.go` |
| `Session` | the usual call sequences (set up, add recipients, write all, read all) | callers in `src/crypt.go` |
| `History` | any sequence of calls on one `Encryptor` and its stream writers | |
| `DecHistory` | any sequence of calls on one `Decryptor` and its stream readers, chunk buffers as shared memory | |
| `Files` | file system, system calls, crashes, `fio.SafeFile`, `writeFile` | `sign/iomisc.go`, go-fio |
| `Cli` | the commands after flag parsing, abbreviation of command names | `src/*.go` |
| `Main` | the whole program: exit handlers, command dispatch, argument counts, pass phrase sources | `src/*.go` |
| `Spec/*` | small independent specifications used in theorem statements | README, doc comments, RFCs |
| `Edwards`, `EdwardsBase`, `EdGroup`, `OrderPrime` | mathematics of the two curves (no model of code) | RFC 7748, RFC 8032 |
| `*Lemmas`, `*General`, `DecInv`, `Nonce`, `HistoryNonce`, `Roundtrip`, `StreamRead` | lemmas | |
| `Demo`, `Props/*` | concrete situations; the property theorems with the concrete cases beside them | |

Conventions: Go integers are `Nat` with the wrap-around written out (`% 2^32`) wherever the Go type is narrower
than the values that can reach it; a method on a pointer returns the new object; an error return is a value; a
nil dereference, an out-of-range slice or a division by zero is the outcome `panic`; random bytes are arguments (so a
theorem for all arguments is a theorem for every outcome of the generator); a reader is a finite script of reads with a
terminal error (every read error ends the API call that met it; in histories of a Decryptor the input may become readable again
afterwards, `DecOp.more`); a writer is a script of full, short and failing writes (full writes after the end of the script). Loops
take fuel; running out of fuel is `panic`, so a theorem that says "no panic" also says that the fuel suffices.

## 2. Plan per property

"R" = the code as read violates the property as users would state it: a negation is proved (`..._refuted`), and what does
hold is proved with suffix `_partial` (or an exact characterisation `_iff`). Every property could be expressed in the model.

| id | modelled by | proof |
|---|---|---|
| C01 C02 C05 | Encrypt/Decrypt/Stream over scripts | container layout lemma (writer side) + decoder run on layout (reader side), induction on chunks |
| C03 | Stream | writer state determined by the concatenation so far (invariant over writes) |
| C04 | Stream | simulation: reader state = suffix of the `Decrypt` result |
| C06 C07 (R) | NewEncryptor/NewDecryptor | arithmetic; witnesses |
| C08, C09 (R) | log of nonces handed to Seal | block counter invariant; witnesses for double use and counter wrap |
| C10, C11 (R), C12 (R) | Decrypt on arbitrary body | induction on the body; "or forgery" disjunct explicit |
| C13, C14 (R) | processTrailer | HMAC input injectivity; construction of the attack body |
| C15 (R), C16 | verifySender | case analysis |
| C17 C18 C21 | API histories | invariants over operation lists |
| C19 C20 (R) | SetPrivateKey and the calls after it | case analysis; witness |
| C22 C23 | Proto | varint lemmas, step lemmas per field, progress of the index |
| C24-C26 | NewDecryptor, decrypt | case analysis, length arithmetic |
| C27-C29 (C28 R) | IO, Encrypt | induction on scripts |
| C30-C33 | Sign, Keys | laws of the primitives; reductions |
| C34 | Base64 | induction in groups of three against an RFC 4648 bit-string specification |
| C35-C40 (C35, C39, C40 R) | Keys | laws; shape of the emitted text |
| C41 (R) C42 (R) C43 C44 (R) | Ssh | parsing lemmas, induction over lines |
| C45 C46 | Curve | arithmetic in ZMod (2^255-19) with Mathlib |
| C47 | Files | invariant over crash points |
| C48 (R) C49 C50 C51 (R) C52 (R) | Cli | case analysis over command runs |
| C53 | Cli | the table of abbreviations against a prefix specification |
| C54 | Decrypt | invariant over the loop with a failing writer |
| C55 (R) | Decrypt | exact position of the reader after the loop |
| C56 | SetPrivateKey | key commitment of the wrapped keys, or forgery |
| C57 | Encryptor histories | invariant |
| C58 (R) C59 C60 | Cli | composition of command runs |
| C61 (R) C62 (R) C63-C65 | DecHistory | invariants over histories; explicit attack histories |
| C66-C70 | Main | case analysis over commands and options, composition of the safe-file runs (C47) of each command |
| C71 C72 | Main | composition of the three runs from C35, C58-C60 |
| C73 (R) | Decrypt | explicit altered containers; case analysis of what opens under the altered header's keys |
| C74 | Encryptor histories | the key invariant of C08/C17 for two histories, collisions as explicit disjuncts |
| C75 | IO, DecHistory | simulation between runs on two deliveries |
| C76 | Encrypt, Stream | from the layout (C05): lengths of the parts, number of chunks |
| C77 | Encryptor histories | simulation between two runs whose states differ only in plaintext contents |
| C78 | Cli (decrypt) | two destinations without failures give the same result; success does not depend on the destination |
| C79 | Cli (generate, sign, encrypt) | each step shown to succeed under the listed conditions |
| C80 | Main, Cli, Encrypt, Decrypt | C71 with a sender, with files or pipes at each end; composition of run lemmas and C01/C15 |
| C81 | KeyObj (key objects with their cache, histories of calls) | invariant over histories; counterexample for reloading a used object |
| C82 | Concurrent (word accesses to the cache by n goroutines, order of accesses a parameter) | invariant over schedules; counterexample schedules for the other orders; measure for progress |
| C83 | Files (mode of inodes), Cli, Main | every run creates at most one file (generate: two) and writes only to it; case analysis over the commands, every prefix of the calls |
| C84 | random source as an `io.Reader` that may fail; every call and command again, drawing from it (`Random`, `RandomCli`) | simulation: each agrees with the version that gets its random bytes as arguments, for consecutive pieces of the source; induction over the history |
| C85 | histories of C08/C09 | chunks of one source have consecutive counters; converse: two sources with data collide at chunk 0 |
| C86 | grammar of the wire format (`Spec.Grammar`), inductive relations without indexes or loops, groups by mutual recursion | soundness by induction over the decoder's rounds, completeness by induction over derivations; for groups, a stack of open groups against mutual induction |
| C87 | `Spec.Contains`: a description of a complete acceptable input, from magic to rest, in terms of `Spec.Grammar`, HKDF/AEAD primitives and lists of chunks | equivalences for each stage (`setup_iff`, `setPrivateKey_iff`, `verifySender_iff`), completeness of the chunk loop by induction, soundness from C26 |
| C88 | Spec.SshKeys: OpenSSH's key files, independent of the parsers; Main | C43, C41, C42 at the level of files, composed with the run lemmas of C80 and C58, C48 |
| C89 | Copy: the loops of io.Copy and io.ReadAll around the stream objects | reduction to a sequence of Write calls (C02, C03) and to a sequence of Read calls (C04), induction over the loops |
| C90 | `Spec.KeyTexts`: base64 as bits of digits, lines as concatenations of fields, options by parity of quotes; no parser in it | decoder against bits of digits; cuts at blanks are unique; scanner state = parity of unescaped quotes; lines by induction |
| C91 | `Spec.KeyTexts`: OpenSSH private key block, section, sealed YAML key | each parser stage as an equivalence (`Takes`), then composed |
| C92 | `Spec.Success`: what key, signature and container files hold, in terms of `Spec.KeyTexts` and `Spec.Accepts` | composition of C87, C90, C91 with the command models, each step as an equivalence |
| C93 | `Spec.Crash`: the files on which the program crashes, in terms of `Spec.KeyTexts` | C44, C48, C90 (crashes) composed with the command models; C26 and C27 for the bodies |
| C94 | `Spec.ManyRuns`: a machine with any number of runs, each a list of calls; steps are one call of one run, a kill, a power loss with any crash image | invariant over all histories, per `SafeFile`: content of its inode, directory entries in the current and the pending directories |
| C95 | same | refuted by a schedule of two runs; corollary of C94 when outputs are not shared |
| C96 C97 (R) | `Terminal`: the two commands again with what they print; kinds of messages, not their texts | case analysis on top of C48; the warning of `decrypt` is shown unreachable |
| C98 | `DecHistory` (the chunk buffers as memory cells), `Spec.Grammar` | sizes by induction over the grammar; invariant on the buffers over all histories; case analysis of `Read` |
| C99 C100 | `Spec.Edwards`: both curves from the RFCs, curve25519 with Mathlib's group of points; `ToCurve25519SK/PK` as in C45, C46 | the birational map is a homomorphism (`Edwards`: polynomial identities, completeness of the addition law); the base point has prime order (`EdwardsBase`: certified double-and-add; `OrderPrime`: Lucas certificates) |
| C101 | `Spec.Gcm`: GCM, HMAC, HKDF from the standards, block cipher and hashes abstract | direct |
| C102 | `Flags`: the option tables and the parser; `Spec.Flags`: the grammar of command lines and the tables of the usage texts | both directions: induction on the grammar, induction on the line |
| C103 (R) | `Main` with `Flags` | corollary of C102; refuted for `encrypt` and `decrypt` |
| C104 | `Main` with `Flags`; `Spec.Machine`: a run where no call fails | composition of C102, C66, C79, C71, C80, C72, C59 |
| C105 | `Spec.Sha2`, `Spec.Aes`, `Spec.Scrypt`, `Spec.Gcm`, `Spec.Edwards`: the algorithms from their standards, with test vectors | the laws are derived from the definitions; then C01, C30 |
| C106 | `Spec.Scrypt`: `scrypt.Key` with its parameter checks in 64-bit arithmetic | case analysis on the signs; then C93 |
| C107 | `Spec.Symbolic`: terms for files and key files, equations between terms, the attacker's computation steps | the terms evaluate to the bytes the model writes; an invariant over the equations and the steps |
| C108 | as C107 | as C107, with an invariant about the signatures a term may yield |
| C109 | as C107 | the invariant of C107 |
| C110 | `Pem`: `pem.Decode` written out; `Spec.SshText`: the files `ssh-keygen` writes; `Spec.Aes` | the inverse cipher undoes the cipher for all keys (linearity of the column mix); induction over blocks and lines; then C43 |
| C111 | as C107 | from C108 and inversion lemmas of term equality |
| C112 | `Spec.SymbolicHelp`: rounds in which recipients decrypt for the attacker | invariant: every box the attacker has was made by honest people or has contents he may know; C54 and C87 link `Decrypt` to the rounds |
| C113 | `Spec.TestScript`: the commands of `tests.sh`, the worlds of consecutive runs; `Main` with `Flags` | C102 for the lines, C104's lemmas for each command, C48 for the wrong keys; the state is carried from run to run |
| C114 | `GoPath`: `path.Clean` written out; `Spec.Path`: where a path leads | invariant of the loop: what has been written is the direct path to the place the words read so far lead to; then C49 |
| C115 | `Standard` primitives, `Encrypt` and the stream writer | the second half of a signature is a number below the group order, so its last byte is at most 16; the trailer without a sender is `coin` |
| C116 | `Spec.SymbolicTest`: recipes, what they give in a world, tests, pairs of worlds | a map from the terms of one world to those of the other that respects `Eqv`, exchanges the boxes and signatures that differ and is the identity on structure elsewhere; the keys of what is exchanged are not known (C107's invariant), so every recipe commutes with the map |
| C117 | `Store`: the three `Serialize` methods, `SignFile`/`VerifyFile` on named files; `Spec.Store`: histories of saves, failures and foreign changes, what is known about a name | invariant over histories: a name holds the text of the last successful save, with its permissions; C38, C35, C36, C33 read the text; C47's relative crash theorem is iterated over the history |
| C118 | `Store`; `Spec.Kinds`: how the YAML library reads a document of another struct | the text of each kind is not an SSH key and leaves the fields the other readers ask for empty; `ReadSignature` asks for none |
| C119 | `Decryptor.setPrivateKey`; `Spec.Retry`: a `Decryptor` after any refused calls | invariant: refused calls change only the remembered key and sender, which the next call overwrites; then C01 |
| C120 | `verifyFile`, `verifyCmd`; Ed25519 as in `Spec.Edwards` | generated keys: both equations give (k - k')A = 0, A has prime order; the neutral element as key: the equation does not contain the message |
| C121 | `addRecipient`, `setPrivateKey`; X25519 and Ed25519 as in `Spec.Montgomery`, `Spec.Edwards` | the point of order two vanishes under every clamped scalar, so the exchange succeeds; no multiple of the base point has that component, so C56 applies to every seed |
| C122 | `makePrivateKey`, `signFile`, `verifyFile`; AES in counter mode, PEM and Ed25519 as in the standards | XOR commutes with the key stream; the nonce of Ed25519 depends on seed and message only, so the two equations S = r + k a can be solved for a in the field of the group order |
| C123 | `verifyCmd`, `verifyFile`; SHA-512 and Ed25519 as in the standards | the command compares the hash in the signature with that of the key (C48); the point (0, -1) vanishes under even numbers, and SHA-512 gives an even one for the empty file; generated keys: compare the two equations |
| C124 | `debug`, and `start`, `Encrypt`, `NewStreamWriter`, `SetPrivateKey` with the text they print (`Debug.lean`) | the result components equal the functions of the other modules; an explicit reading procedure (`Spec/Debug.lean`) is run on the text and the layout of C05 and C87 |
| C125 | key objects whose fields are addresses in a memory shared with the caller (`Alias.lean`, on top of `KeyObj.lean`) | invariant: the arrays of the key are none of the caller's and hold the key and its conversions; the refuted part evaluates three short histories |
| C126 | the files of `Encrypt` and of the stream writer as a function of the random bytes (`Props/Game.lean: encrypted, streamed`) | games as means over finite types (`Spec/Game.lean`); the file has the documented form (C05), then five steps that replace agreed keys, wrapped root key, derived keys and HMAC by random ones, each equal to a game of an explicit player |
| C127 | the same, with two groups of recipients and recipients of the watcher's own (`Spec/Anon.lean`) | agreed keys, then boxes are replaced by random bytes; what is left is symmetric in the groups |
| C128 | the same, many files one after the other (`Spec/ManyFiles.lean`) | hybrid argument: the file in place k is drawn afresh |
| C129 | `SignFile`, `VerifyFile`, and sending with `NewEncryptor`, `AddRecipient`, `Encrypt` or the stream writer as answers to a dialogue (`Props/Forge.lean: useKey, acceptsFile`) | every use equals a dialogue that only asks for signatures of messages (`Spec.Use.answer`), so the three runs are one run; then the log is searched: Ed25519 forgery, or a collision, as 64-byte checksums differ from 32-byte statements |
| C130 | as C129, with `NewDecryptor`, `SetPrivateKey`, `AuthenticatedSender`, `Decrypt` as what judges the file presented (`Props/Author.lean: authenticated, readAs`) | the file that wins shows a signature (header or trailer) that verifies; either its message was never signed, and the impostor is an Ed25519 forger, or it was, and then some hashed string has the hash of one hashed in a use |
| C131 | `Spec/Outsider.lean`: the game (drawn key pairs, plaintext, file, changed file with the same header, what `NewDecryptor`/`SetPrivateKey`/`Decrypt` give), and the players | where the changed body deviates first there is a chunk that opens and is not the sender's (induction over the chunks read, `Props/Outsider.lean`); steps of C126 up to a random data key, where that chunk is a forgery |
| C132 | `Spec/Reaction.lean`: a function of file and changed file without keys; `NewDecryptor`, `SetPrivateKey`, `Decrypt` on the changed file | induction over the chunks of the file: where the two agree the decryptor goes on, where they differ it fails or there is a strange chunk (exact outcome of a block, as in C131) |
| C133 | the game of C126 with questions (`Spec/Asking.lean`), on the files and the reader of C126 and C131 | as long as no question is read otherwise than `reaction` (C132) says, the spy could answer himself; the first question that is, is the changed file of a tamperer of C131 (whose game was generalised to any event that implies a strange chunk) |
| C134 | `encryptCmd` in the games of C126 and C127 (`Spec/Site.lean`): file system, options and arguments as functions of public keys and plaintext | the command exits with 0 (C79); what its body wrote (as in C59) is what `Encrypt` writes to any destination that takes everything, for the same keys; so command and library write the same files for all draws, and the games have the same odds |
| C135 | `encryptCmd` and `decryptCmd` in the game of C131; fault scripts and file system of the recipient | a recipient whom `decryptCmd` fools (by cases of the exit status, atomic replacement of the output file) would be fooled by `Decrypt` on the same destination; C131's reduction for that event |
| C136 | `signCmd` (failing standard output, file system faults) and `verifyCmd`; the dialogue of C129 | a run of `signCmd` is a function of the one signature it makes, so a stranger who talks to the command can be made into one who talks to `SignFile`; exit status 0 of `verifyCmd` by C48; then C129 |
| C137 | the game of C129 with a third use of the key: `NewDecryptor` and any sequence of calls (`SetPrivateKey`, `Decrypt`, `NewStreamReader`, `Read`) on what it returns | decrypting depends on the secret key only through the product of the header's point and the scalar (the program is run on a key of zero bytes with that product); then the argument of C129 for a forger with two wishes |
| C138 | all commands, every prefix of their system calls, failing destinations | what the body of a command appended to its destination (C54 for decrypt, `encrypt_outcome` for encrypt), and that a run creates one file and writes to it a prefix of that (C83's lemma), split at every call |
| C139 | a container, two of its recipients, the file one of them makes of it (Spec/Rewritten.lean: the old header, his contents sealed under the session keys, the empty end marker), `decrypt` of the library and of the command | false of the code: the file is shown to be a container in the sense of C87 with his contents and the old sender; C92 gives the command; C139_sent shows that any two recipients of a signed session are in this position |


## 3. Which code is modelled

| Go | Lean | Simplified |
|---|---|---|
| `NewEncryptor`, `addSenderSig` | `newEncryptor`, `chooseBlock`, `senderField`, `senderKey`, `senderDigest` | random bytes are arguments (`EncCoins`); `Random.lean` has every drawing call again with the random source, which may fail, and C84 shows that they agree |
| `AddRecipient`, `wrapKey` | `Encryptor.addRecipient`, `Encryptor.wrapKey`, `kekOf` | |
| `Encrypt`, `start`, `encrypt`, `writeTrailer` | `Encryptor.encrypt`, `.encryptLoop`, `.start`, `.encryptBlock`, `.writeTrailer`, `lenWord`, `chunkNonce` | the HMAC state is the list of bytes written to it; the log of sealed nonces (`SealRec`) is added |
| `NewStreamWriter`, `Write`, `Close` | `Encryptor.newStreamWriter`, `EncWriter.write/.writeLoop/.close` | |
| `NewDecryptor` | `newDecryptor`, `checkHeader` | |
| `SetPrivateKey`, `unwrapKey`, `verifySender` | `Decryptor.setPrivateKey`, `.findKey`, `.unwrapKey`, `.verifySender` | |
| `AuthenticatedSender` | field `auth` | |
| `Decrypt`, `decrypt`, `processTrailer` | `Decryptor.decrypt`, `.decryptLoop`, `.decryptBlock`, `.processTrailer` | |
| `NewStreamReader`, `Read` | `Decryptor.newStreamReader`, `EncReader.read`; with memory: `DecState.step/.read`, `Decryptor.bufAfter` | |
| `fullwrite` | `fullwrite`, `fullwriteLoop` | |
| `expand`, `newSender`, `sha256Slices` | `expand`, inlined, inlined | |
| `Header`/`WrappedKey` `SizeVT`, `MarshalToSizedBufferVT`, `UnmarshalVT`, `Size`, `MarshalTo`, `Unmarshal` | `Header.size/.marshal/.marshalToSized/.unmarshal/.step`, `WrappedKey...`, `skip`, `varintLoop`, `lenDelim`, `unknownField` | reflection-based protobuf methods are not called and not modelled |
| `pkhash`, `NewPrivateKey`, `makePrivateKeyFromBytes`, `PrivateKeyFromBytes`, `makePublicKeyFromBytes`, `PublicKeyFromBytes` | `pkhash`, `newPrivateKey`, `makePrivateKeyFromBytes`, `makePublicKeyFromBytes` | `copy` into fresh slices, so no aliasing |
| `ToCurve25519SK`, `ToCurve25519PK`, `clamp` | `toCurve25519SK`, `toCurve25519PK`, `modInverse`, `clamp` | with the cache as part of the object: `PubObj`, `PrivObj` (KeyObj.lean); with arrays shared with the caller: `Shared`, `KeyRef` (Alias.lean, C125); elsewhere keys are values |
| `MakePrivateKey`, `(*PrivateKey).MarshalBinary/UnmarshalBinary/Serialize`, `ReadPrivateKey` | `makePrivateKey`, `PrivateKey.marshal`, `unmarshalPrivYaml`, `looksOpenSSH`, `readPrivateKey` | |
| `MakePublicKey`, `MakePublicKeyFromString`, `(*PublicKey).MarshalBinary/UnmarshalBinary/Serialize`, `ReadPublicKey` | `makePublicKey`, `makePublicKeyFromString`, `PublicKey.marshal`, `unmarshalPubYaml`, `readPublicKey` | |
| `SignMessage`, `VerifyMessage`, `SignFile`, `VerifyFile`, `IsPKMatch`, `fileCksum`, `makeSignature`, `(*Signature).MarshalBinary`, `ReadSignature` | `signMessage`, `verifyMessage`, `signFile`, `verifyFile`, `isPKMatch`, `fileCksum`, `unmarshalSig`, `Signature.marshal`, `readSignature` | |
| `parseSSHPrivateKey`, `parseOpenSSHPrivateKey`, `extractBcryptIvBlock` | `parseSSHPrivateKey`, `parseOpenSSHPrivateKey`, `privateSection`, `openSection`, `bcryptIvKey`, `unmarshal{Header,Key,Ed,Opts}` | `ssh.Unmarshal` is written out for the four structs it is used with |
| `parseSSHPublicKey`, `parseEncPubKey`, `parseString`, `parseAuthorizedKey`, `ParseAuthorizedKeys` | same names | regexp `[ \t]+` split written out |
| `PublicKey.Serialize`, `PrivateKey.Serialize`, `Signature.Serialize`, `SignFile` and `VerifyFile` with the file system | `PublicKey.serialize`, `PrivateKey.serialize`, `Signature.serialize`, `signNamed`, `verifyNamed` (Store.lean) | `yaml.Marshal` does not fail on these structs |
| `writeFile` | `writeFile`, `newSafeFile`, `closeCalls`, `abortCalls` | see 4.3 |
| `Die`, `AtExit`, `Exit`, `main`, `usage`, `exists` | `exitOf`, `Outcome`; `Main` | |
| `gen`, `signify`, `verify`, `encrypt`, `decrypt`, `nullWriter`, `mustOpen` | `genCmd`, `signCmd`, `verifyCmd`, `encryptCmd`, `decryptCmd` with `withOutput`, `encryptBody`, `decryptBody`, `addAll`, `resolveRecipient`, `selectCommand` | after flag parsing; see 4.3 |
| flag declarations of `main` and of each command | `topDefs`, `genDefs`, `signDefs`, `verifyDefs`, `encDefs`, `decDefs`, `realFlags` | in `Main` the parser is a parameter, so theorems about `World.main` hold for any parser; `Flags.lean` instantiates it |
| `Warn`, `fmt.Printf` in `verify` and `decrypt` | `verifySays`, `decryptNotices` | of messages on standard error only the kind |
| `Debug`, `debug` | `debugText`, `Encryptor.startD`, `encryptD`, `newStreamWriterD`, `Decryptor.setPrivateKeyD`, `TopOpts.level` | the level is an argument; the commands of the CLI are not repeated with the text |
| (standard library) `pem.Decode` | `Pem.decode` | used in C110 only; elsewhere a parameter |
| (standard library) `path.Clean` | `GoPath.clean` | used in C114 only; elsewhere a parameter (`World.clean`) |
| (standard library) `io.Copy`, `io.CopyBuffer`, `io.ReadAll` | `Copy.lean` | loops over `Read`/`Write`; `WriteTo`/`ReadFrom` shortcuts are not modelled |

Not modelled: terminal output other than the lines of `verify` and the messages of `decrypt` (`Terminal.lean`) and the debug text of the library (`Debug.lean`, C124), usage texts, `Askpass` (terminal input) beyond
"returns a string or fails", `randu32` (unused), generated protobuf reflection code.

## 4. Trusted base

### 4.1 Logic

* The Lean 4.33.0 kernel. Axioms: at most `propext`, `Classical.choice`, `Quot.sound`; `AXIOMS.md` lists them for each
  theorem of the manifest. No axiom is added, no proof uses compiled evaluation; `decide +kernel` is checked by the kernel.
* That each definition says what the Go code says. Section 3 and the comments record the correspondence; nothing checks
  it mechanically. `seeded/LOG.jsonl` records what happens when a definition is changed the way a bug would change it.

### 4.2 Assumed laws (hypotheses of the theorems, not axioms)

* `Prims.Laws`: output lengths (and that X25519 only succeeds on a 32-byte point); AES-GCM opens what it sealed and what opens is the sealing of the result; Ed25519 verifies
  what it signed, and never returns 64 zero bytes; X25519 agreement between a clamped ephemeral scalar and an honestly
  generated Ed25519 key; scrypt accepts N=524288, r=8, p=1. All are functional facts about the algorithms; **no** law
  states hardness. Security theorems conclude "... or here is a forgery / collision", with the forged object named.
  C126-C131 and C133-C137 conclude that an attacker's advantage is at most that of explicit players against the primitives; that these
  advantages are small for AES-GCM, HKDF, HMAC and X25519 is not assumed in, and not part of, any theorem.
  `toyLaws` proves that the laws are consistent by an instance that can be evaluated. `C100_laws` and `C101_laws` derive the
  laws from definitions of X25519, Ed25519, GCM, HMAC and HKDF written from their standards (`Spec.Edwards`, `Spec.Gcm`); what
  is left to assume then is `Prims.Lengths` (lengths of hashes and KDF outputs, scrypt accepts its parameters). `C105_laws` derives
  these as well from SHA-2, AES-256 and scrypt (`Spec.Sha2`, `Spec.Aes`, `Spec.Scrypt`, checked against published test vectors
  by `decide +kernel`), so that under `Spec.Standard` the only assumptions are that Go's libraries compute these functions and
  the length of the result of bcrypt_pbkdf.
* `Yaml.Laws`, `Yaml.Reads`: base64 text that ends in `=` is written plain; the library reads back what it wrote for the
  comment at hand. `Spec.SkipsEntries` (C118 only): entries without a field are skipped, fields without an entry stay empty. `toyYaml` is an instance.
* `pem.Decode` is an arbitrary function; the slack of the slice it returns (capacity minus length) is arbitrary. In C110 it is the decoder of `Pem.lean`, written after Go's source from memory.
* `strings.ToLower` is an arbitrary function in C53 (its ASCII behaviour is a hypothesis of `C53_ascii`).

### 4.3 Dependencies read from memory (their source is not in the sandbox)

* `go-fio` `SafeFile`: refuses an existing target without overwrite, and a target that is not a regular file; writes to a
  temporary file in the same directory; `Close` syncs, closes, renames; `Abort` closes and removes the temporary file and
  does nothing after a successful `Close`. A failing `stat` is taken as "does not exist" only when it does not exist.
* `pflag`: `parseArgs`, `parseLongArg`, `parseSingleShortArg`, `strconv.ParseBool` (`Flags.lean`); an error prints the usage text
  through the `Usage` function of the flag set before `ExitOnError` exits with status 2.
* `go-mmap` `Reader`: yields the whole content or an error, for an empty file as well.
* `vtprotobuf/protohelpers`: `SizeOfVarint`, `EncodeVarint`, `Skip`.
* `go-utils`: `Abbrev` (table of unique prefixes), `ParseSize`, `Askpass`.
* `golang.org/x/crypto`: `ssh.Unmarshal` field rules; `bcrypt_pbkdf`; `scrypt.Key` argument checks.
* Go: `path.Clean` (C114), `io.ReadFull`, `base64.StdEncoding` (ignores CR and LF), `strings.TrimSpace`, `regexp.Split`, `cipher.NewCBCDecrypter`
  (crashes on partial blocks), GCM `Open` clearing its output on failure, `ed25519.Verify` crashing on a key of the wrong length.

### 4.4 Limits

* Calls are sequential, except in C82 (a key shared by goroutines; accesses are interleaved, which is weaker than the Go memory model allows only in that contents of a buffer are visible once its pointer is). Two goroutines on one Encryptor or Decryptor are outside the model (and outside what the library promises).
* Scripts are finite: a reader that blocks for ever, or returns `0, nil` for ever, is not modelled.
* Allocation always succeeds, except where a length check is the subject (C23, C24); running time is not modelled, and memory only as the chunk buffers and header fields of C98.
* File system: one flat directory map, no symbolic links or quotas; permission bits are recorded (C83) but never deny access, no umask; a crash loses nothing that was synced and
  may lose any suffix of unsynced writes; renames are atomic. Failures of single calls are arbitrary (`SafeEnv`).
* In `Cli` the bytes the encrypt/decrypt commands read are a `Reader` script that need not agree with the file system
  (so the theorems cover files that change while being read); where a theorem needs the file's content it says so.
* C107, C108, C109, C111, C112 and C116 are symbolic: the attacker computes with terms, and two terms are the same only if the equations of `Spec.Symbolic.Eqv` say so. A term of which he has a part (or both halves of a cut)
  yields it; signatures, hashes and boxes do not reveal what went in, except that a box opens with its key. Chunks are atoms (a plaintext is not itself an encrypted file of the
  session), the attacker gets signatures only on messages that he can name as bytes, and recipients decrypt for him only in C112. That a real attacker cannot do more is the assumption of the method, not a theorem.
* Timing and other side channels, and erasure of secrets from memory, are not modelled.

## 5. Checks

* `vcheck` builds a clean copy of the last commit.
* Wrong programs: `seeded/LOG.jsonl`, one line per edit.
* The project's own tests, and the theorems that state for every input what each of them tries on one:

| test | theorems |
|---|---|
| `TestSignSimple`, `TestSignRandBuf` | C117, C118, C30, C31, C32, C33 |
| `TestEncryptSimple`, `TestEncryptSmallSizes` | C01 |
| `TestEncryptCorrupted` | C22, C23, C24, C25, C75 |
| `TestEncryptSenderVerified` | C15, C16, C119 |
| `TestEncryptMultiReceiver` | C01, C07 |
| `TestStreamIO`, `TestStreamIOSmallSize` | C02, C03, C04, C21 |
| `tests.sh` | C113 |
