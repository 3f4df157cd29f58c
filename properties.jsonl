{"id": "C01", "title": "Encrypt then Decrypt is the identity", "statement": "If Encrypt returns nil for a reader that ended in io.EOF, then NewDecryptor, SetPrivateKey (with any listed recipient's key and the sender's public key) and Decrypt on the produced bytes all succeed, and Decrypt writes exactly the bytes the reader delivered. Block size 0 means 4 MiB, and every block size from 0 up to 2^30-1 works.", "quantifier": "every plaintext of any length, every block size below 2^30, every non-empty recipient list whose header fits in 1 MiB, every recipient in it, signed or anonymous sender, every outcome of the random generator, every way the input arrives in reads, every short-write schedule of the output, every way the container is re-read, any bytes following the container", "why_tests_cant": "tests try a handful of sizes; the claim is over all lengths (the exact multiples of the block size take a different code path), all read splits, all recipient positions and all random values", "anchors": ["sign/encrypt.go: NewEncryptor, AddRecipient, Encrypt, start, encrypt, writeTrailer, NewDecryptor, SetPrivateKey, Decrypt, decrypt, processTrailer, wrapKey, unwrapKey, addSenderSig, verifySender"]}
{"id": "C02", "title": "Stream writer then Decrypt is the identity", "statement": "Writing any sequence of buffers through the io.WriteCloser from NewStreamWriter and closing it produces a container from which a recipient's Decrypt recovers exactly the concatenation of the buffers; every Write returns len(b), nil.", "quantifier": "every list of write buffers (any lengths, including empty), every block size below 2^30, any recipients/sender/random values, any non-failing destination", "why_tests_cant": "the buffering logic has a boundary case at each multiple of the block size for each alignment of the writes; tests fix one write size", "anchors": ["sign/stream.go: NewStreamWriter, encWriter.Write, encWriter.Close", "sign/encrypt.go: encrypt, Decrypt"]}
{"id": "C03", "title": "Stream writer output does not depend on how the data is split into writes", "statement": "Two stream writers started from the same encryptor state that receive the same total bytes produce byte-identical containers, however the bytes are cut into Write calls.", "quantifier": "every two lists of buffers with equal concatenation, every block size >= 1, every sender, recipients and random values the encryptor was made with", "why_tests_cant": "the number of segmentations is exponential in the length", "anchors": ["sign/stream.go: encWriter.Write, encWriter.Close"]}
{"id": "C04", "title": "Stream reader returns the same plaintext as Decrypt for every sequence of read sizes", "statement": "Reading through NewStreamReader with any sequence of positive buffer sizes returns successive pieces of exactly the plaintext that Decrypt would write, never more than the buffer size, and io.EOF only after all of it; if Decrypt fails, the reader fails with the same error after returning the same plaintext prefix, and repeats that error on each later call.", "quantifier": "every container byte string (well-formed or not), every sequence of buffer sizes, every read split of the underlying reader", "why_tests_cant": "interaction of arbitrary read sizes with chunk boundaries and errors cannot be enumerated", "anchors": ["sign/stream.go: NewStreamReader, encReader.Read", "sign/encrypt.go: Decrypt, decrypt"]}
{"id": "C05", "title": "Container layout conforms to the documented format", "statement": "The bytes written by Encrypt and by the stream writer are exactly: the 7-byte magic, version 3, the big-endian 32-bit header length, the protobuf header, the SHA-256 of all of that, then for each chunk a big-endian 32-bit length with the top bit set on the last chunk only followed by the AEAD ciphertext and tag, then a 64-byte trailer. Encrypt cuts the input into full blocks followed by one final shorter (possibly empty) block; the stream writer's final block is full when the data is a non-zero multiple of the block size.", "quantifier": "every plaintext, block size, header, key material, destination that accepts all writes", "why_tests_cant": "a golden-file test fixes one input; interoperability needs the layout for every size", "anchors": ["sign/encrypt.go: start, encrypt, writeTrailer, Encrypt", "sign/stream.go: encWriter.Write, encWriter.Close", "README.md: Format of the Encrypted File"]}
{"id": "C06", "title": "Every block size NewEncryptor accepts yields a decryptable container", "statement": "NewEncryptor accepts any 64-bit block size (clamping large ones); a container written with it is accepted by NewDecryptor.", "quantifier": "every uint64 block size", "why_tests_cant": "a boundary at exactly 2^30 in two different functions; nobody tests with gigabyte blocks", "anchors": ["sign/encrypt.go: NewEncryptor, NewDecryptor, maxChunkSize"]}
{"id": "C07", "title": "Any number of recipients can be addressed", "statement": "However many recipients AddRecipient accepted, the resulting container is accepted by NewDecryptor.", "quantifier": "every recipient count from one upwards", "why_tests_cant": "the limit is a size threshold reached only with thousands of recipients", "anchors": ["sign/encrypt.go: AddRecipient, start, NewDecryptor"]}
{"id": "C08", "title": "No chunk nonce is used twice under one data key within a session", "statement": "During a single Encrypt call or a single stream writer's life, no two AEAD seal operations use the same nonce, as long as at most 2^32 chunks are sealed.", "quantifier": "every input, block size, write schedule, including writes that fail part way", "why_tests_cant": "distinctness over an unbounded number of chunks; the counter is 32 bits wide", "anchors": ["sign/encrypt.go: encrypt, Encrypt", "sign/stream.go: encWriter.Write, encWriter.Close"]}
{"id": "C09", "title": "No chunk nonce is reused over the whole life of an Encryptor", "statement": "Over any sequence of API calls on one Encryptor no two AEAD seal operations share a data key and nonce.", "quantifier": "every sequence of AddRecipient/Encrypt/NewStreamWriter/Write/Close calls and every amount of data", "why_tests_cant": "needs long histories or 2^32 chunks", "anchors": ["sign/encrypt.go: Encrypt, encrypt", "sign/stream.go: NewStreamWriter, encWriter.Write"]}
{"id": "C10", "title": "Tampering with the body is detected or yields only a whole-chunk prefix", "statement": "For a genuine header, if Decrypt returns nil on an arbitrary body then what it wrote is the concatenation of the first k genuine chunks for some k, unless the body contains an AEAD forgery (a chunk that opens under the data key although the sender never sealed it with that nonce and length word). In particular re-ordered, duplicated, dropped-in-the-middle or re-sized chunks are never accepted.", "quantifier": "every genuine container and every attacker-chosen replacement body", "why_tests_cant": "all byte strings; the adversary is unbounded", "anchors": ["sign/encrypt.go: decrypt, Decrypt"]}
{"id": "C11", "title": "Truncating the body at a chunk boundary is detected", "statement": "If Decrypt returns nil on a container with a genuine header then, absent AEAD forgeries, it wrote the complete plaintext.", "quantifier": "every genuine container and every attacker-chosen body", "why_tests_cant": "the accepted truncations need a crafted end marker", "anchors": ["sign/encrypt.go: decrypt (case m == 0)"]}
{"id": "C12", "title": "Every strict prefix of a container is rejected", "statement": "If the bytes of a container are cut short anywhere, NewDecryptor or Decrypt returns an error.", "quantifier": "every container, every cut position", "why_tests_cant": "quadratically many cuts; only some containers are affected", "anchors": ["sign/encrypt.go: NewDecryptor, decrypt, processTrailer"]}
{"id": "C13", "title": "Successful decryption of a sender-authenticated container implies a valid trailer", "statement": "If AuthenticatedSender() is true and Decrypt returns nil after a non-empty final chunk, the 64 trailer bytes are a valid Ed25519 signature by the given sender key over the HMAC of exactly the chunk lengths and plaintext that were written, and that HMAC input determines the plaintext and its chunk boundaries uniquely.", "quantifier": "every byte string presented as body, every key", "why_tests_cant": "an adversarial input property", "anchors": ["sign/encrypt.go: processTrailer, decrypt, writeTrailer", "sign/sign.go: VerifyMessage"]}
{"id": "C14", "title": "A co-recipient cannot replace the content of a sender-authenticated container", "statement": "For a signed container, someone who only knows the root key (another recipient) cannot produce a body that Decrypt accepts with AuthenticatedSender() true and a different plaintext, without the sender's signature.", "quantifier": "every signed header, every co-recipient, every replacement plaintext", "why_tests_cant": "an attack, not a random fault", "anchors": ["sign/encrypt.go: decrypt, processTrailer (doc comment lines 45-47)"]}
{"id": "C15", "title": "SetPrivateKey with a sender key accepts only that sender", "statement": "If SetPrivateKey(sk, pk) with non-nil pk returns nil then the header carries a signature that verifies under pk.", "quantifier": "every header, every pk", "why_tests_cant": "needs the absence of a signature, in an otherwise valid file", "anchors": ["sign/encrypt.go: verifySender, SetPrivateKey", "README.md: Decrypt a file and verify the sender"]}
{"id": "C16", "title": "AuthenticatedSender reports exactly a verified signature", "statement": "On a fresh Decryptor, after SetPrivateKey(sk, pk) returns nil, AuthenticatedSender() is true if and only if the header's sender field opens under the root key to something other than 64 zero bytes, and in that case it is an Ed25519 signature by pk over SHA-256(magic, version, ephemeral key, salt, root key). A signed header with the wrong sender key gives ErrBadSender; with no sender key gives ErrNoSenderPK; an unsigned one gives false.", "quantifier": "every header, key and sender key", "why_tests_cant": "adversarial headers", "anchors": ["sign/encrypt.go: verifySender, addSenderSig, AuthenticatedSender"]}
{"id": "C17", "title": "Recipients are exactly those added, in order, before encryption starts", "statement": "The header of the container holds one wrapped key per successful AddRecipient call made before the first byte was written, in call order; once encryption has started AddRecipient returns ErrEncStarted and changes nothing.", "quantifier": "every history of calls on an Encryptor", "why_tests_cant": "histories", "anchors": ["sign/encrypt.go: AddRecipient, wrapKey, start"]}
{"id": "C18", "title": "Encryptor usage-order guards", "statement": "Encrypt on an encryptor that has a stream writer returns ErrEncIsStream and writes nothing; a header is written exactly once over the life of an encryptor unless writing it failed.", "quantifier": "every encryptor state reachable by any call history", "why_tests_cant": "histories", "anchors": ["sign/encrypt.go: Encrypt, start", "sign/stream.go: NewStreamWriter"]}
{"id": "C19", "title": "Decryptor usage-order guards", "statement": "On a freshly created Decryptor, Decrypt and NewStreamReader return ErrNoKey; after NewStreamReader, Decrypt returns ErrDecStarted; after Decrypt succeeded, Decrypt and NewStreamReader return io.EOF; none of these calls consumes input or writes output.", "quantifier": "every decryptor state reachable by the named histories", "why_tests_cant": "histories", "anchors": ["sign/encrypt.go: Decrypt", "sign/stream.go: NewStreamReader"]}
{"id": "C20", "title": "A Decryptor whose SetPrivateKey failed refuses to decrypt", "statement": "If the only SetPrivateKey call failed, Decrypt returns an error (it does not crash and writes nothing).", "quantifier": "every header, every failing SetPrivateKey call", "why_tests_cant": "needs the failing paths of sender verification", "anchors": ["sign/encrypt.go: SetPrivateKey (d.key assigned before verifySender), Decrypt, decrypt"]}
{"id": "C21", "title": "Stream writer errors are sticky and nothing is written after Close or failure", "statement": "After Close or after any Write/Close failed, every later Write and Close on that stream writer returns the same non-nil error and neither writes to nor closes the destination.", "quantifier": "every sequence of Write/Close calls and every destination failure schedule", "why_tests_cant": "failure positions times histories", "anchors": ["sign/stream.go: encWriter.Write, encWriter.Close"]}
{"id": "C22", "title": "Header codec round-trip", "statement": "Unmarshal of the marshalled header yields the same chunk size, salt, ephemeral key, sender field and wrapped keys; the marshalled length equals Size(), so the buffer arithmetic in Marshal neither overruns nor leaves a gap.", "quantifier": "every header: any 32-bit chunk size, any byte fields, any number of wrapped keys", "why_tests_cant": "unbounded fields; varint length boundaries at every 7 bits", "anchors": ["internal/pb/hdr_vtproto.pb.go: MarshalToSizedBufferVT, SizeVT, UnmarshalVT", "internal/pb/helpers.go"]}
{"id": "C23", "title": "Header decoding is total", "statement": "Unmarshal returns or fails with an error on every byte string; it never indexes out of range, never loops forever and never recurses beyond the nested message.", "quantifier": "every byte string, including lengths and varints that overflow 64-bit integers", "why_tests_cant": "all byte strings", "anchors": ["internal/pb/hdr_vtproto.pb.go: Header.UnmarshalVT, WrappedKey.UnmarshalVT"]}
{"id": "C24", "title": "NewDecryptor validates what the later steps rely on", "statement": "A Decryptor is returned only if magic and version match, the declared header length is between 32 and 1048576, the stored checksum equals the SHA-256 of the header bytes, the chunk size is in 1..2^30-1, the salt has 32 bytes, there is at least one wrapped key and each wrapped key has more than 32 bytes; each violation yields its error; it never panics and reads at most 12+length+32 bytes.", "quantifier": "every input byte stream and read split", "why_tests_cant": "all byte strings", "anchors": ["sign/encrypt.go: NewDecryptor"]}
{"id": "C25", "title": "Header modification changes the checksum or exhibits a hash collision", "statement": "Two containers that NewDecryptor accepts and whose header bytes differ carry different checksums, or their headers are a SHA-256 collision; and the data key, nonce and HMAC key are an HKDF output salted with that checksum.", "quantifier": "every pair of header byte strings", "why_tests_cant": "all pairs of byte strings", "anchors": ["sign/encrypt.go: NewDecryptor, SetPrivateKey, start"]}
{"id": "C26", "title": "Decryption never crashes or over-reads, whatever the body", "statement": "After a successful SetPrivateKey, Decrypt on any byte stream returns nil or an error: the length word can never cause an out-of-range slice or a 32-bit overflow, no chunk larger than the header's chunk size is ever read or written, and the loop terminates.", "quantifier": "every header accepted by NewDecryptor, every body", "why_tests_cant": "all byte strings", "anchors": ["sign/encrypt.go: decrypt, Decrypt, processTrailer"]}
{"id": "C27", "title": "Full writes", "statement": "Every block handed to the destination is delivered completely and in order if no error is returned, whatever short counts the destination reports; if an error is returned, a prefix was delivered.", "quantifier": "every buffer and every finite schedule of short, zero and failing writes", "why_tests_cant": "schedules", "anchors": ["sign/encrypt.go: fullwrite"]}
{"id": "C28", "title": "A failing input reader never yields a complete container", "statement": "If the input reader fails with an error other than io.EOF, Encrypt returns an error and does not write the end marker.", "quantifier": "every reader, every failure point and error", "why_tests_cant": "failure injection at every byte", "anchors": ["sign/encrypt.go: Encrypt (switch err)"]}
{"id": "C29", "title": "Encrypt closes the destination exactly once, only on success", "statement": "If Encrypt gets as far as writing the trailer it closes the destination exactly once and returns that result; if it fails earlier it does not close it.", "quantifier": "every reader, writer and failure point", "why_tests_cant": "failure points", "anchors": ["sign/encrypt.go: Encrypt"]}
{"id": "C30", "title": "SignMessage then VerifyMessage", "statement": "A signature made by SignMessage for a private key verifies under that key's public key for the same message bytes, matches it under IsPKMatch, and VerifyMessage is Ed25519 verification of SHA-512 of the fixed prefix followed by the message.", "quantifier": "every valid private key and message", "why_tests_cant": "all messages", "anchors": ["sign/sign.go: SignMessage, VerifyMessage, IsPKMatch"]}
{"id": "C31", "title": "SignFile then VerifyFile, and what a file signature binds", "statement": "A signature from SignFile verifies under VerifyFile for a file with the same content; if a signature produced by the signer for one content is accepted for another content then the two contents exhibit a SHA-512 collision or an Ed25519 forgery. The hashed encoding of (content, length) is injective.", "quantifier": "every file content up to 2^64-1 bytes", "why_tests_cant": "all pairs of contents", "anchors": ["sign/sign.go: SignFile, VerifyFile", "sign/iomisc.go: fileCksum"]}
{"id": "C32", "title": "Public key hash match", "statement": "IsPKMatch is true exactly when the 16-byte truncated SHA-256 hashes agree; it is true for the signer's key and true for another key only if the truncated hashes collide.", "quantifier": "every signature and public key", "why_tests_cant": "all pairs", "anchors": ["sign/sign.go: IsPKMatch", "sign/keys.go: pkhash"]}
{"id": "C33", "title": "Signature serialisation round-trip", "statement": "MarshalBinary with any comment followed by UnmarshalBinary yields the same signature bytes and key hash, so verification and key matching give the same answer before and after.", "quantifier": "every signature and comment", "why_tests_cant": "all byte strings", "anchors": ["sign/sign.go: Signature.MarshalBinary, makeSignature"]}
{"id": "C34", "title": "Base64 text round-trip", "statement": "Decoding the standard base64 text of any byte string returns that byte string; embedding line breaks anywhere does not change the result; text with trailing junk after padding is rejected.", "quantifier": "every byte string", "why_tests_cant": "all lengths modulo 3 and all values", "anchors": ["sign/keys.go: MarshalBinary, UnmarshalBinary", "sign/sign.go: makeSignature"]}
{"id": "C35", "title": "Private key serialisation round-trip", "statement": "MarshalBinary with a comment and passphrase followed by UnmarshalBinary with a getpw that returns that passphrase yields the same private key, public key and hash.", "quantifier": "every valid private key, passphrase (including empty), salt and comment", "why_tests_cant": "all keys, comments and passphrases", "anchors": ["sign/keys.go: PrivateKey.MarshalBinary, PrivateKey.UnmarshalBinary, makePrivateKeyFromBytes"]}
{"id": "C36", "title": "A wrong passphrase never yields a key", "statement": "If UnmarshalBinary of a serialized private key succeeds with some passphrase, then the derived key authenticates the encrypted blob: success with a passphrase whose derived key differs is an AEAD forgery. When the derived key does not open the blob the error says wrong password and no key is returned.", "quantifier": "every serialized key and passphrase", "why_tests_cant": "all passphrases", "anchors": ["sign/keys.go: PrivateKey.UnmarshalBinary"]}
{"id": "C37", "title": "Loaded keys are internally consistent", "statement": "Every private key returned by MakePrivateKey/ReadPrivateKey (YAML or OpenSSH) has 64 secret bytes, its public key is the last 32 of them and its hash is the truncated SHA-256 of the public key; every public key returned has 32 bytes and the matching hash.", "quantifier": "every input byte string and passphrase callback", "why_tests_cant": "all byte strings", "anchors": ["sign/keys.go: makePrivateKeyFromBytes, makePublicKeyFromBytes, UnmarshalBinary", "sign/ssh.go: parseOpenSSHPrivateKey, parseEncPubKey"]}
{"id": "C38", "title": "Public key serialisation round-trip", "statement": "PublicKey.MarshalBinary with any comment followed by UnmarshalBinary yields the same key bytes and hash (the attempt to read it as an SSH key first never misfires).", "quantifier": "every 32-byte key and comment", "why_tests_cant": "all keys: the SSH attempt looks at key-dependent text", "anchors": ["sign/keys.go: PublicKey.MarshalBinary, PublicKey.UnmarshalBinary", "sign/ssh.go: parseSSHPublicKey"]}
{"id": "C39", "title": "Public key from string", "statement": "MakePublicKeyFromString of the base64 text of a sigtool public key returns that key.", "quantifier": "every 32-byte key", "why_tests_cant": "fails only for keys with a particular 4-byte start", "anchors": ["sign/keys.go: MakePublicKeyFromString", "sign/ssh.go: parseEncPubKey"]}
{"id": "C40", "title": "Parsing an unsupported public key returns an error", "statement": "ReadPublicKey / MakePublicKey on any input returns a key or an error; it never crashes and never returns a nil key without error.", "quantifier": "every input byte string", "why_tests_cant": "needs an SSH key of another type", "anchors": ["sign/keys.go: PublicKey.UnmarshalBinary, MakePublicKeyFromString", "sign/ssh.go: parseEncPubKey (returns nil, nil)"]}
{"id": "C41", "title": "OpenSSH public key files are accepted", "statement": "A one-line OpenSSH ed25519 public key file is read as that key with that comment.", "quantifier": "every 32-byte key and every comment", "why_tests_cant": "comments with blanks or no comment take another path", "anchors": ["sign/ssh.go: parseSSHPublicKey, parseEncPubKey"]}
{"id": "C42", "title": "authorized_keys parsing is line by line", "statement": "ParseAuthorizedKeys never fails, its result for two files joined by a newline is the concatenation of the results, it never contains nil or malformed keys, blank lines, comment lines and other key types contribute nothing, and a plain or option-prefixed ed25519 line contributes exactly its key and trimmed comment.", "quantifier": "every byte string", "why_tests_cant": "all files", "anchors": ["sign/ssh.go: ParseAuthorizedKeys, parseAuthorizedKey"]}
{"id": "C43", "title": "OpenSSH private key acceptance", "statement": "An unencrypted OpenSSH ed25519 private key is accepted exactly if it has one key, matching check words, key type ed25519, a 64-byte secret and 1,2,3,... padding, and then yields that secret; an encrypted one asks for the passphrase, and mismatching check words give ErrIncorrectPassword.", "quantifier": "every well-framed key file content and comment", "why_tests_cant": "all field values", "anchors": ["sign/ssh.go: parseOpenSSHPrivateKey"]}
{"id": "C44", "title": "Private key loading never crashes", "statement": "MakePrivateKey on any byte string and passphrase callback (including none) returns a key or an error.", "quantifier": "every byte string", "why_tests_cant": "needs malformed salt, short PEM body, unaligned CBC block, or a nil callback", "anchors": ["sign/keys.go: PrivateKey.UnmarshalBinary", "sign/ssh.go: parseOpenSSHPrivateKey"]}
{"id": "C45", "title": "Curve25519 secret conversion", "statement": "ToCurve25519SK is SHA-512 of the 32-byte seed, truncated to 32 bytes and clamped: divisible by 8, bit 254 set, bit 255 clear; clamping is idempotent; repeated calls return the same value.", "quantifier": "every seed", "why_tests_cant": "all values", "anchors": ["sign/keys.go: ToCurve25519SK, clamp"]}
{"id": "C46", "title": "Curve25519 public conversion", "statement": "ToCurve25519PK of an Ed25519 public key is the canonical 32-byte little-endian encoding of u=(1+y)/(1-y) mod 2^255-19 (0 when y=1), independent of the sign bit; for a point on the Edwards curve u is on the Montgomery curve.", "quantifier": "every 32-byte string", "why_tests_cant": "all 2^256 inputs; field arithmetic", "anchors": ["sign/keys.go: ToCurve25519PK, curve25519P"]}
{"id": "C47", "title": "Files are replaced atomically", "statement": "Serialize leaves the target either untouched or holding the complete new content, at every crash point and for every I/O failure; without the overwrite flag an existing file is never changed; on failure no temporary file remains unless removing it fails as well.", "quantifier": "every crash point, failure point, content and initial file system", "why_tests_cant": "crash points", "anchors": ["sign/iomisc.go: writeFile"]}
{"id": "C48", "title": "verify exits 0 exactly for a valid signature", "statement": "The verify command exits 0 if and only if the key, the signature and the file are readable, the key hash in the signature matches, and the Ed25519 signature is valid for the file; otherwise its exit status is 1.", "quantifier": "every argument list and file system content", "why_tests_cant": "all inputs", "anchors": ["src/verify.go: verify"]}
{"id": "C49", "title": "generate never clobbers an existing key without --overwrite", "statement": "Without --overwrite, if either key file exists the command fails and no file changes; on success both files exist and the written pair belongs together.", "quantifier": "every file system and prefix", "why_tests_cant": "all initial states", "anchors": ["src/gen.go: gen", "sign/iomisc.go: writeFile"]}
{"id": "C50", "title": "encrypt addresses all named recipients or none", "statement": "The encrypt command exits 0 only if every recipient argument was resolved; then the header has one wrapped key per argument in order; if any argument cannot be resolved the command fails and the output file is not created or changed.", "quantifier": "every argument list, key files and authorized_keys", "why_tests_cant": "all argument lists", "anchors": ["src/crypt.go: encrypt"]}
{"id": "C51", "title": "a failed decrypt leaves the output file untouched, a successful one holds the full plaintext", "statement": "If the decrypt command with -o exits non-zero the output file is unchanged; if it exits 0 the output file holds exactly the decrypted plaintext.", "quantifier": "every container, key, and I/O failure", "why_tests_cant": "failure points", "anchors": ["src/crypt.go: decrypt"]}
{"id": "C52", "title": "encrypt and decrypt refuse to write onto their own input", "statement": "With -o naming the same file as the input, the command fails and leaves the file unchanged.", "quantifier": "every path", "why_tests_cant": "needs aliasing paths", "anchors": ["src/crypt.go: encrypt, decrypt (os.SameFile)"]}
{"id": "C53", "title": "Command names may be abbreviated unambiguously, independent of map order", "statement": "Each non-empty prefix of a command name (any letter case) selects that command, nothing else does, and the outcome does not depend on Go's random map iteration order.", "quantifier": "every string and every iteration order", "why_tests_cant": "all strings and all permutations", "anchors": ["src/sigtool.go: main"]}
{"id": "C54", "title": "Random failures and interior crashes release only authenticated chunks", "statement": "Whatever the input and at whatever point the stream or output fails, every byte Decrypt has written to the destination is plaintext of a chunk that opened under the data key with its own position as nonce, in order starting at chunk 0.", "quantifier": "every body, every failure point of reader and writer", "why_tests_cant": "failure points times inputs", "anchors": ["sign/encrypt.go: Decrypt, decrypt"]}
{"id": "C55", "title": "Decrypt consumes exactly the container", "statement": "When Decrypt returns nil on a genuine container followed by other data, the reader is left positioned exactly at the following data.", "quantifier": "every sending session, recipient, and trailing data", "why_tests_cant": "all inputs and lengths", "anchors": ["sign/encrypt.go: Decrypt, decrypt, processTrailer"]}
{"id": "C56", "title": "Only listed recipients can open a container", "statement": "SetPrivateKey with a private key whose public key was not passed to AddRecipient returns ErrBadKey, and Decrypt then returns ErrNoKey and writes nothing, unless some wrapped key is an AEAD forgery under that private key's wrapping key.", "quantifier": "every sending session and every private key", "why_tests_cant": "all keys", "anchors": ["sign/encrypt.go: SetPrivateKey, unwrapKey, AddRecipient"]}
{"id": "C57", "title": "No call sequence on an Encryptor crashes", "statement": "Whatever calls are made on an Encryptor and its stream writers, in whatever order and with whatever readers and destinations, none of them panics, except AddRecipient with a public key of more than 32 bytes.", "quantifier": "every history of calls, every reader and destination", "why_tests_cant": "histories", "anchors": ["sign/encrypt.go: AddRecipient, Encrypt, start, encrypt, writeTrailer", "sign/stream.go: NewStreamWriter, encWriter.Write, encWriter.Close"]}
{"id": "C58", "title": "sign writes a valid signature or changes nothing", "statement": "The sign command exits 0 only if key and file were readable, and then the signature file (or standard output) holds a signature that the public half of that key verifies for that file; if it exits non-zero, or crashes at any point, every other file and any previous signature file are unchanged.", "quantifier": "every key file, passphrase, input file, output name, I/O failure and crash point", "why_tests_cant": "failure and crash points", "anchors": ["src/sign.go: signify"]}
{"id": "C59", "title": "generate, sign, verify work together", "statement": "After generate and sign have succeeded, verify with the generated public key, the signature file and the same file exits 0, in whatever state the other files are; with a file of different content it exits 1 unless SHA-512 collides or the signature is forged.", "quantifier": "every key name, passphrase, comment, file content and file system", "why_tests_cant": "all inputs, composition of three commands", "anchors": ["src/gen.go: gen", "src/sign.go: signify", "src/verify.go: verify"]}
{"id": "C60", "title": "encrypt then decrypt recovers the file through the command line", "statement": "After encrypt exits 0, decrypt of the written file with the private key of any named recipient exits 0 and its output file holds exactly the original content.", "quantifier": "every content, reader behaviour, block size, recipient list and file system", "why_tests_cant": "all inputs, composition of two commands", "anchors": ["src/crypt.go: encrypt, decrypt"]}
{"id": "C61", "title": "Only authenticated bytes leave a Decryptor, whatever calls are made on it", "statement": "After any sequence of SetPrivateKey, Decrypt, NewStreamReader and Read calls, the bytes a Decrypt call writes, and the bytes the Read calls deliver, are an initial part of the plaintexts of consecutive frames of the input that each open, with their own position as nonce, under the data key of a root key which an earlier successful SetPrivateKey got out of the header.", "quantifier": "every history of calls with any arguments, any number of stream readers, any input (whose errors may be final or temporary) and destinations", "why_tests_cant": "histories and interleavings; the chunk buffer is shared memory", "anchors": ["sign/encrypt.go: Decrypt, decrypt, SetPrivateKey", "sign/stream.go: NewStreamReader, encReader.Read"]}
{"id": "C62", "title": "AuthenticatedSender reflects the last sender check", "statement": "Whenever AuthenticatedSender() is true, the latest SetPrivateKey call named a sender key, returned nil, and the header's sender field is a signature by that key over this header.", "quantifier": "every history of calls on a Decryptor", "why_tests_cant": "histories", "anchors": ["sign/encrypt.go: AuthenticatedSender, SetPrivateKey, verifySender"]}
{"id": "C63", "title": "A careful program cannot be crashed through a Decryptor", "statement": "If all private keys have at least 32 bytes, all sender keys 32, either all SetPrivateKey calls name a sender or none does, and the program stops using the Decryptor when the first sender check fails, then no call panics, whatever the input.", "quantifier": "every input, with final or temporary errors, and every history of calls within these rules", "why_tests_cant": "histories times inputs", "anchors": ["sign/encrypt.go: SetPrivateKey, Decrypt, decrypt, processTrailer", "sign/stream.go: encReader.Read"]}
{"id": "C64", "title": "Decrypt and stream reading exclude each other over whole histories", "statement": "Once NewStreamReader has returned a reader every Decrypt returns ErrDecStarted; once a Decrypt has returned nil or a Read io.EOF, every NewStreamReader returns io.EOF and every Decrypt io.EOF or ErrDecStarted; nothing is delivered or changed.", "quantifier": "every history of calls, including further SetPrivateKey calls", "why_tests_cant": "histories", "anchors": ["sign/encrypt.go: Decrypt", "sign/stream.go: NewStreamReader, encReader.Read"]}
{"id": "C65", "title": "Errors of a stream reader are final", "statement": "Once a Read has returned an error (io.EOF included), every later Read on that reader returns the same error, delivers nothing and changes nothing.", "quantifier": "every history of calls, interleaved with other readers and calls; also when the error of the input was temporary", "why_tests_cant": "histories", "anchors": ["sign/stream.go: encReader.Read"]}
{"id": "C66", "title": "The program does what the first argument names, or nothing", "statement": "If the first non-option argument is an abbreviation of exactly one command, the run is that command on the remaining arguments; otherwise the run touches no file, prints no output data, and exits 0 for --help/--version, 2 if the global options do not parse, and 1 in every other case.", "quantifier": "every command line and every iteration order of the command map", "why_tests_cant": "all command lines, all orders", "anchors": ["src/sigtool.go: main"]}
{"id": "C67", "title": "A run changes only the files its command line names as outputs; a failed run changes none", "statement": "Whatever the command line and whichever system calls fail, a run changes only the files that the command line names as outputs; a run with a non-zero exit status (a crash of the Go runtime included) changes no file, except that generate may leave a complete private key file when writing the public key file fails; no temporary file is left if removal works.", "quantifier": "every command line, file system, key, input and I/O failure", "why_tests_cant": "all command lines times failure points", "anchors": ["src/sigtool.go: main", "src/gen.go: gen", "src/sign.go: signify", "src/crypt.go: encrypt, decrypt", "src/die.go: Die, AtExit"]}
{"id": "C68", "title": "Interrupting the program never damages a file", "statement": "If the program is killed or the power fails at any moment of a run, each file that was on disk is found as it was before the run or as the uninterrupted run leaves it.", "quantifier": "every command line, crash point and crash image", "why_tests_cant": "crash points", "anchors": ["src/sigtool.go: main", "src/gen.go: gen", "src/sign.go: signify", "src/crypt.go: encrypt, decrypt"]}
{"id": "C69", "title": "Where the pass phrase comes from does not matter", "statement": "With --no-password or --env-password the terminal is never consulted; a pass phrase from an environment variable is used exactly as one typed at the terminal, and --no-password exactly as an empty or unset variable.", "quantifier": "every command line, environment and terminal answer", "why_tests_cant": "all command lines and answers", "anchors": ["src/gen.go: gen", "src/sign.go: signify", "src/crypt.go: encrypt, decrypt"]}
{"id": "C70", "title": "A signed container is not decrypted unless its signer is named", "statement": "If decrypt exits 0, the container is unsigned, or it carries a valid signature by the key that --verify-sender names; the warning about an unauthenticated sender is never printed.", "quantifier": "every container, key file and option", "why_tests_cant": "all inputs", "anchors": ["src/crypt.go: decrypt", "sign/encrypt.go: SetPrivateKey, verifySender"]}
{"id": "C71", "title": "generate, encrypt, decrypt compose at program level", "statement": "Run generate, encrypt for recipients including the generated public key, and decrypt with the generated private key and the same pass phrase: if the first two exit 0 and the output can be written, decrypt exits 0 and its output file holds exactly the input of encrypt.", "quantifier": "every command line for these runs, content, block size, recipient list, pass phrase source, and other activity between the runs", "why_tests_cant": "composition of three runs over all inputs", "anchors": ["src/sigtool.go: main", "src/gen.go: gen", "src/crypt.go: encrypt, decrypt"]}
{"id": "C72", "title": "generate, sign, verify compose at program level", "statement": "Run generate, sign with the generated private key and the same pass phrase, and verify with the generated public key: if the first two exit 0 and no call on the signature file fails, verify exits 0.", "quantifier": "every command line for these runs, content, comment, pass phrase source, and other activity between the runs", "why_tests_cant": "composition of three runs over all inputs", "anchors": ["src/sigtool.go: main", "src/gen.go: gen", "src/sign.go: signify", "src/verify.go: verify"]}
{"id": "C73", "title": "A change to a signed header is noticed", "statement": "If a recipient who names the sender gets a container whose header was altered on the way (block size, list of wrapped keys) or whose body was replaced, Decrypt does not return nil with anything but the sender's plaintext.", "quantifier": "every session, every altered header and body", "why_tests_cant": "all inputs, an active attacker", "anchors": ["sign/encrypt.go: NewDecryptor, SetPrivateKey, verifySender, Decrypt, processTrailer"]}
{"id": "C74", "title": "Different files are encrypted under different data keys", "statement": "Two chunks sealed by two encryptors, after any calls on each, are sealed under the same AEAD key only if both drew the same root key and wrote byte for byte the same header, or a SHA-256 collision of the two headers or an HKDF-SHA512 collision occurred.", "quantifier": "every two encryptors (senders, block sizes, random bytes), every history of calls on each", "why_tests_cant": "histories times random choices", "anchors": ["sign/encrypt.go: NewEncryptor, start, encrypt"]}
{"id": "C75", "title": "How the input is delivered does not matter", "statement": "If two readers yield the same bytes and end with the same error, however the bytes are split over Read calls, then NewDecryptor, every sequence of calls on the Decryptor and Encrypt give the same results, the same output bytes and the same AuthenticatedSender().", "quantifier": "every two deliveries of every input, every sequence of calls and every destination", "why_tests_cant": "all splits times all histories", "anchors": ["sign/encrypt.go: NewDecryptor, Decrypt, SetPrivateKey, Encrypt", "sign/stream.go: encReader.Read"]}
{"id": "C76", "title": "The size of an encrypted file depends only on recipients, block size and length", "statement": "What a successful Encrypt writes has 271 bytes and the encoded block size, 66 for each recipient, and n + 20*(n/b+1) for n plaintext bytes in blocks of b; through a stream writer with max(1, ceil(n/b)) chunks instead; with or without a sender, whoever the recipients are.", "quantifier": "every sender, recipients, block size, input and destination", "why_tests_cant": "all inputs", "anchors": ["sign/encrypt.go: Encrypt, start, encrypt, writeTrailer", "sign/stream.go: encWriter.Write, Close"]}
{"id": "C77", "title": "The plaintext reaches the output only through AEAD Seal, and HMAC if there is a sender", "statement": "Replace Seal by a function that reveals only the length of its plaintext (and HMAC likewise if there is a sender): then every two sequences of calls that differ only in the contents of the plaintext give the same results and write the same bytes.", "quantifier": "every encryptor, every sequence of AddRecipient, Encrypt, NewStreamWriter, Write, Close calls, every plaintext and destination", "why_tests_cant": "a property of pairs of executions", "anchors": ["sign/encrypt.go: Encrypt, start, encrypt, writeTrailer", "sign/stream.go: encWriter.Write, Close"]}
{"id": "C78", "title": "decrypt --test says whether decrypt would succeed", "statement": "If the output can be created and written, decrypt and decrypt --test exit with the same status on the same key, options and input; whatever the output, decrypt exits 0 only if decrypt --test does.", "quantifier": "every container, key file, option, file system and I/O behaviour", "why_tests_cant": "pairs of runs over all inputs", "anchors": ["src/crypt.go: decrypt"]}
{"id": "C79", "title": "The commands do not fail without cause", "statement": "generate exits 0 if a pass phrase is available, nothing is in the way of its two files (or --overwrite) and no system call on them fails; sign exits 0 exactly if the key loads, the file is readable and the signature file can be created; encrypt exits 0 if the block size parses, keys load, there is a recipient, each denotes a genuine key, the input is read to its end, authorized_keys is readable or missing and the output can be written. A recipient with an @ after its first character is looked up in authorized_keys only.", "quantifier": "every argument, file content, file system and input behaviour", "why_tests_cant": "a liveness claim over all inputs", "anchors": ["src/gen.go: gen", "src/sign.go: signify", "src/crypt.go: encrypt"]}
{"id": "C80", "title": "Two generated key pairs, encrypt --sign and decrypt --verify-sender compose, through files or pipes", "statement": "Generate a key pair for a sender and one for a recipient; encrypt with --sign for recipients including the second public key; decrypt with the second private key and --verify-sender naming the first public key, reading what encrypt wrote to a file or a pipe: if the first three exit 0 and the output can be written, decrypt exits 0, has produced exactly the input of encrypt, and changed no other file.", "quantifier": "every command line for these runs, content, block size, recipient list, file or pipe at each end, pass phrase source, and other activity between the runs", "why_tests_cant": "composition of four runs over all inputs", "anchors": ["src/sigtool.go: main", "src/gen.go: gen", "src/crypt.go: encrypt, decrypt"]}
{"id": "C81", "title": "A key object acts as the key loaded into it last", "statement": "After any sequence of UnmarshalBinary calls and uses of one key object, converting it, adding it as a recipient or setting it as decryption key gives what a fresh object with the last loaded key gives.", "quantifier": "every sequence of calls on the object, every serialised key", "why_tests_cant": "histories", "anchors": ["sign/keys.go: UnmarshalBinary, ToCurve25519PK, ToCurve25519SK, makePublicKeyFromBytes, makePrivateKeyFromBytes", "sign/encrypt.go: AddRecipient, SetPrivateKey, wrapKey, unwrapKey"]}
{"id": "C82", "title": "Goroutines can share a key", "statement": "If several goroutines use the same public or private key object, each with its own Encryptor or Decryptor, AddRecipient and SetPrivateKey give each of them what they give when nobody else uses the key.", "quantifier": "any number of goroutines, every interleaving of their accesses to the key, every order of the single accesses that the memory model allows", "why_tests_cant": "schedules", "anchors": ["sign/keys.go: ToCurve25519PK, ToCurve25519SK", "sign/encrypt.go: AddRecipient, SetPrivateKey, wrapKey, unwrapKey"]}
{"id": "C83", "title": "Private keys, plaintexts and encrypted files are never put where others can read them", "statement": "At every moment of a run, a file on which the group or others have any permission is one that was there before and is unchanged, or holds nothing but (a beginning of) the text of the new public key or the new signature. This includes temporary files and overwriting a file that others may read. After a successful generate, the .key file has mode 0600 and the .pub file mode 0644.", "quantifier": "every command line, file system (with any permissions on existing files), content, I/O failure and moment of the run", "why_tests_cant": "every crash point of every run", "anchors": ["sign/keys.go: Serialize", "sign/iomisc.go: writeFile", "src/gen.go: gen", "src/sign.go: signify", "src/crypt.go: encrypt, decrypt"]}
{"id": "C84", "title": "Random bytes are fresh, and a failing random source is fatal", "statement": "Over any history of calls on an encryptor, the ephemeral key, data key, salt, the nonce of each wrapped key and each random trailer are consecutive pieces of what the random source delivers, no byte of it used twice; a recipient is never added, and a container without sender never finished, without drawing. If the source fails, the call that needs it panics and does not close its destination. Likewise for whole runs of the program: seed and salt of a new key file, and all of the above for encrypt; if the source fails the exit status is not 0 and no file has changed.", "quantifier": "every history of calls and every command line, every behaviour of the random source (any bytes, any pieces, failure at any point)", "why_tests_cant": "all histories times all behaviours of the source", "anchors": ["sign/rand.go: randRead, randBuf", "sign/keys.go: NewPrivateKey, Serialize", "sign/encrypt.go: NewEncryptor, AddRecipient, Encrypt, wrapKey, newSender, writeTrailer", "src/gen.go: gen", "src/crypt.go: encrypt"]}
{"id": "C85", "title": "Exactly which chunks share a nonce", "statement": "Over any history of calls on an encryptor, chunk i of one Encrypt call or stream writer and chunk j of another (or the same) are sealed under the same key and nonce if and only if i and j agree modulo 2^32. So a history is free of nonce reuse if and only if one Encrypt call or one stream writer sealed all the data, in at most 2^32 chunks.", "quantifier": "every encryptor, every history of AddRecipient, Encrypt, NewStreamWriter, Write, Close calls with any data, destination and failure", "why_tests_cant": "all histories, and chunk counts no test reaches", "anchors": ["sign/encrypt.go: Encrypt, encrypt", "sign/stream.go: encWriter.Write, Close", "sign/encrypt.go: makeNonceV2"]}
{"id": "C86", "title": "The header decoder accepts exactly the protobuf wire format", "statement": "A byte string is accepted, as header h, if and only if the wire format derives it with meaning h: fields in any order, the last of a repeated scalar counts, wrapped keys accumulate, fields with other numbers of any wire type (groups may nest; end tags need not match) are kept verbatim; varints of at most ten bytes. Everything else is refused with an error. Each string has at most one meaning.", "quantifier": "every byte string", "why_tests_cant": "every input", "anchors": ["internal/pb/hdr_vtproto.pb.go: UnmarshalVT", "internal/pb/helpers.go: Unmarshal", "protohelpers.Skip (dependency)"]}
{"id": "C87", "title": "Exactly which inputs are decrypted, and to what", "statement": "NewDecryptor, SetPrivateKey and Decrypt all succeed, deliver plain, report auth as AuthenticatedSender and leave rest unread if and only if the input is: magic, version, length, a header in the wire format that obeys the header rules, its SHA-256, chunks sealed with the keys that the first wrapped key opening under the private key yields, a proper end (marker, or last chunk and trailer), then rest; the sender field is the 'no sender' field or a signature by the named sender, in which case the trailer is his signature too. So input and keys determine the result; everything else is refused with an error, never a crash; the stream reader reaches io.EOF on exactly the same inputs, with the same contents.", "quantifier": "every input, delivery of it, private key, named sender (or none) and read sizes", "why_tests_cant": "every input", "anchors": ["sign/encrypt.go: NewDecryptor, SetPrivateKey, Decrypt, decrypt, processTrailer, verifySender, unwrapKey", "sign/stream.go: encReader.Read"]}
{"id": "C88", "title": "Keys made by ssh-keygen can be used for everything", "statement": "Encrypt for a user whose Ed25519 key stands (last) in ~/.ssh/authorized_keys with the user's name as its comment, or for an OpenSSH public key file with a comment of one word; optionally sign with an OpenSSH private key file. decrypt with the recipient's OpenSSH private key file, in the clear or encrypted with AES and bcrypt, and the sender's OpenSSH public key file, exits with 0 and produces the input. A file signed with an OpenSSH private key is accepted by verify with the OpenSSH public key file or its base64 field as argument.", "quantifier": "every Ed25519 key, comment, pass phrase and its source, authorized_keys file around the line, command line for these runs, content, block size, recipient list, file or pipe at each end, other activity between the runs", "why_tests_cant": "composition of runs over all inputs and all forms of the key files", "anchors": ["sign/ssh.go: parseSSHPrivateKey, parseSSHPublicKey, ParseAuthorizedKeys", "sign/keys.go: MakePrivateKey, MakePublicKey, MakePublicKeyFromString", "src/crypt.go: encrypt, decrypt", "src/sign.go: signify", "src/verify.go: verify"]}
{"id": "C89", "title": "The streams work with io.Copy and io.ReadAll", "statement": "If NewStreamWriter, io.Copy (or io.CopyBuffer with any buffer) from a source into the writer and Close return nil, the count is the size of the source, the source ended with io.EOF, and the container is the one a single Write gives and decrypts to the source. With a destination that does not fail, io.Copy ends, and reports an error of the source. io.Copy from the stream reader ends, writes a beginning of what Decrypt delivers, as long as it reports, and if it returns nil then all of it, and Decrypt returns nil too; a destination that takes everything gets everything, with the error that Decrypt returns. io.ReadAll likewise.", "quantifier": "every source and delivery of it, buffer size, growth of io.ReadAll's buffer, container (genuine or not), destination and failure", "why_tests_cant": "loops of unbounded length over arbitrary sources, buffers and inputs", "anchors": ["sign/stream.go: encWriter.Write, Close, encReader.Read, NewStreamWriter, NewStreamReader"]}
{"id": "C90", "title": "Exactly which texts are read as public keys and signatures", "statement": "ParseAuthorizedKeys returns, line by line and in order, exactly the keys of the lines 'word key comment' or 'options word key comment' (options: blanks only inside quotes, quotes closed) with the comment trimmed, whatever the key-type word; comments, key fields of other types and everything else contribute nothing. MakePublicKey returns a key exactly for texts of three blank-separated fields whose second is base64 of an SSH Ed25519 key, else for YAML whose pk is base64 of 32 bytes; it crashes exactly for three fields with the key of another type. MakePublicKeyFromString likewise for its two forms; a signature is read exactly if both its fields are base64. Base64 is: line breaks anywhere, padding required, any value of the unused bits.", "quantifier": "every byte string (file, argument, line)", "why_tests_cant": "every input, as an equivalence", "anchors": ["sign/ssh.go: ParseAuthorizedKeys, parseAuthorizedKey, parseSSHPublicKey, parseEncPubKey, parseString", "sign/keys.go: MakePublicKey, MakePublicKeyFromString", "sign/sign.go: makeSignature"]}
{"id": "C91", "title": "Exactly which texts are read as private keys", "statement": "MakePrivateKey returns a key with given secret bytes if and only if the text contains the words of the OpenSSH PEM header (not at its very beginning) and decodes to an OpenSSH key block with one Ed25519 key, in the clear or encrypted (AES-CTR or AES-CBC, bcrypt) under the pass phrase given, with equal check words and correct padding; or it does not contain them and is a YAML document whose sealed key opens under the key that scrypt derives from the pass phrase, the salt and the parameters in it. The public half is the last 32 of the 64 secret bytes.", "quantifier": "every byte string, every pass phrase and every failure to get one", "why_tests_cant": "every input, as an equivalence", "anchors": ["sign/keys.go: MakePrivateKey, UnmarshalBinary", "sign/ssh.go: parseSSHPrivateKey, parseOpenSSHPrivateKey, extractBcryptIvBlock"]}
{"id": "C92", "title": "Exactly when each command succeeds", "statement": "For options that parse: verify exits with 0 exactly if the first argument is the text of a public key or names a public key file, the second names a signature file carrying the hash of that key, the third can be read and the signature is valid for it. sign exits with 0 exactly if its output is '-' or can be created, the first argument names a private key file that opens with the pass phrase and the second can be read. generate (with writes that do not fail) exits with 0 exactly if there is an argument, a pass phrase can be had and both files can be created, synced, closed and renamed. encrypt (ditto) exits with 0 exactly if the block size parses, the sender key opens, the input exists, there is a home directory, the output can be created, every other argument stands for a public key with which X25519 works (user@host: the last key of authorized_keys with that comment; else a public key file), the input ends and the output can be closed. decrypt (ditto) exits with 0 exactly if the private key file opens, the sender file, if named, holds a public key, the input is a container for these keys, and there is --test or the output can be had; and then exactly the contents of the container are written.", "quantifier": "every world (files, environment, terminal, random bytes, system call failures) and command line", "why_tests_cant": "every world and input, as an equivalence", "anchors": ["src/sigtool.go: main, gen, signify, verify", "src/crypt.go: encrypt, decrypt", "sign/"]}
{"id": "C93", "title": "Exactly when the program crashes", "statement": "The exit status is 0, 1 or 2. For options that parse, generate does not crash. verify crashes exactly if its first argument is base64 text that begins like an SSH key of another type and the signature file can be read, or it names a public key file of three fields with a key of another type. sign crashes exactly if its output can be had and its private key file is one of: OpenSSH content shorter than its magic word, or the magic word alone, or CBC-encrypted with a section that is not whole blocks; sigtool content with a salt too short for a nonce or scrypt parameters on which scrypt crashes. decrypt crashes exactly if its private key file is such a file, or opens and the file of -v is such a public key file: never because of its input. encrypt crashes exactly if the block size parses and the file of -s is such a private key file, or everything else is in order and a recipient argument names such a public key file, before any recipient whose key X25519 rejects: never because of its input or a failing output.", "quantifier": "every world (files, environment, terminal, random bytes, system call failures) and command line", "why_tests_cant": "every world and input, as an equivalence", "anchors": ["src/sigtool.go: main, gen, signify, verify", "src/crypt.go: encrypt, decrypt", "sign/"]}
{"id": "C94", "title": "Runs at the same time, killed, or cut off by power losses never damage a file", "statement": "Run the program any number of times on one machine, with any command lines, at the same time or after one another, kill runs at any moment, let the machine lose power at any moment and start again: at every instant, and after one more power loss, each file that was on disk in the beginning holds what it held then or all of what one run that names it as an output writes to it. Once a run that changes a file is finished (no power loss), the file holds all of what a run wrote, never again the old content. A finished run leaves no temporary file.", "quantifier": "every number of runs, command lines, files, interleaving of their system calls, kill and power loss points, system call failures", "why_tests_cant": "all interleavings and crash points of any number of runs", "anchors": ["sign/iomisc.go: writeFile", "src/sigtool.go: main, gen, signify", "src/crypt.go: encrypt, decrypt", "fio.SafeFile (dependency)"]}
{"id": "C95", "title": "Overlapping runs of generate do not mix their key pairs", "statement": "When successful runs of generate overlap, the private key file and the public key file they leave belong together, and without --force no run replaces a file another run has just written.", "quantifier": "every interleaving of runs", "why_tests_cant": "all interleavings", "anchors": ["src/sigtool.go: gen", "sign/keys.go: Serialize", "sign/iomisc.go: writeFile"]}
{"id": "C96", "title": "What verify prints is the result, and --quiet prints nothing", "statement": "verify prints 'FILE: Signature SIG verified' exactly if the signature is valid (and then exits with 0), 'FILE: Signature SIG verification failure' exactly if key, signature and file can be read, belong together and the signature is not valid, and otherwise only a message on standard error. With --quiet it prints nothing at all. A line 'X: Signature Y verified' in the output means that this file was verified.", "quantifier": "all files, arguments and options", "why_tests_cant": "all inputs", "anchors": ["src/verify.go: verify", "src/die.go: Die, Warn"]}
{"id": "C97", "title": "The messages of decrypt tell what happened", "statement": "decrypt -t prints 'Enc file OK' exactly if the container decrypts with the given keys; a failure is always reported; a signed container that is decrypted without naming its sender is pointed out ('Missing sender Public Key').", "quantifier": "all containers, keys and options", "why_tests_cant": "all inputs", "anchors": ["src/crypt.go: decrypt", "src/die.go: Die, Warn"]}
{"id": "C98", "title": "What an untrusted container can make the reader use is bounded", "statement": "NewDecryptor takes at most 12 + 2^20 + 32 bytes of any input; the fields of a header it accepts hold at most 2^20 bytes in all, at most 28339 wrapped keys, and announce a chunk size between 1 and 2^30 - 1. After any history of calls, the chunk memory is one buffer of chunk size + 16 bytes per successful SetPrivateKey and nothing before the first; SetPrivateKey and NewStreamReader take no input; each Read delivers at most what fits into the caller's buffer and takes at most one frame (4 + chunk size + 16 + 64 bytes) from the input.", "quantifier": "every input, delivery of it, and history of calls on a Decryptor", "why_tests_cant": "all inputs and all call histories", "anchors": ["sign/encrypt.go: NewDecryptor, SetPrivateKey, Decrypt, decrypt, processTrailer", "sign/stream.go: encReader.Read", "internal/pb/hdr_vtproto.pb.go: UnmarshalVT"]}
{"id": "C99", "title": "Key agreement between converted Ed25519 keys and ephemeral keys works for every key", "statement": "For every Ed25519 key pair, ToCurve25519SK and ToCurve25519PK give a Curve25519 key pair: X25519 of the converted secret and the base point is the converted public key. For every ephemeral secret, the shared secret the sender computes from the converted public key is the one the recipient computes from the converted private key and the ephemeral public key, and neither X25519 call fails. A recipient key of order 1, 2, 4 or 8 is refused by AddRecipient, without an effect.", "quantifier": "every seed and every ephemeral secret; X25519 and Ed25519 as RFC 7748 and RFC 8032 define them", "why_tests_cant": "2^512 pairs of secrets", "anchors": ["sign/keys.go: ToCurve25519SK, ToCurve25519PK, clamp", "sign/encrypt.go: NewEncryptor, AddRecipient, wrapKey, unwrapKey"]}
{"id": "C100", "title": "Every signature verifies, and its second half cannot be changed", "statement": "With Ed25519 as RFC 8032 defines it: for every key and message, what the private key signs verifies under the public key; for each public key that encodes a point, each message and each first half of a signature there is at most one second half that verifies. With this and C99 the curves are not part of what the theorems assume about primitives.", "quantifier": "every key, message and signature", "why_tests_cant": "all seeds and messages", "anchors": ["sign/keys.go: Sign, Verify", "sign/sign.go"]}
{"id": "C101", "title": "The symmetric primitives behave as the container format assumes", "statement": "AES-GCM as SP 800-38D defines it, whatever the block cipher: what was sealed opens to the same bytes under the same key, nonce and associated data; what opens is what sealing the result gives; the ciphertext is 16 bytes longer. HMAC and HKDF as RFC 2104 and RFC 5869 define them return as many bytes as the code takes. So all theorems hold of every implementation of the standards whose hash and password functions return results of the right length.", "quantifier": "every key, nonce, plaintext, ciphertext and associated data", "why_tests_cant": "all inputs", "anchors": ["sign/encrypt.go: expand, wrapKey, unwrapKey, encrypt, decrypt, addSenderSig, verifySender"]}
{"id": "C102", "title": "What a command line means", "statement": "For every list of words, the options and arguments a command acts on are exactly those the grammar gives: --name=value, --name value, --name for an option without a value, -x value, -xvalue, -x=value, letters of options without a value written together, arguments between options, everything after -- is an argument, the last occurrence of an option counts, options without a value accept only words for true and false. Options of the program itself come before the command. Help is shown exactly when it is asked for in a line that is otherwise understood (generate, sign, verify) or at the word that asks (encrypt, decrypt). The command lines of the README have the meaning the README gives them (except gen -p, which is not understood).", "quantifier": "every list of words, for the program and each of the five commands", "why_tests_cant": "lines are unbounded and options can be combined, repeated and placed anywhere", "anchors": ["src/sigtool.go: main", "src/gen.go: gen", "src/sign.go: signify", "src/verify.go: verify", "src/crypt.go: encrypt, decrypt"]}
{"id": "C103", "title": "A command line that is not understood is never reported as success", "statement": "If a command line is outside the grammar of C102 (an unknown or misspelt option, a missing value, a bad word for true or false) nothing is read or written and the exit status is not zero. (Found false for encrypt and decrypt: their usage function, which the parser calls before it returns the error, exits with status 0, so a script that misspells an option takes the missing output for success.)", "quantifier": "every list of words and every state of the system", "why_tests_cant": "the space of wrong command lines is unbounded; each command has its own table and usage function", "anchors": ["src/crypt.go: encrypt, decrypt, encryptUsage, decryptUsage", "src/gen.go: gen", "src/sign.go: signify", "src/verify.go: verify", "src/sigtool.go: main"]}
{"id": "C104", "title": "The walkthrough of the README works", "statement": "On a machine where no call fails, the command lines the README shows, read by the program's own option parser, do what it says. generate K, encrypt -o C K.pub F, decrypt -o P K.key C: all exit with 0 and P holds what F held. The same with a sender: generate S, generate R, encrypt -s S.key -o C R.pub F, decrypt -v S.pub -o P R.key C. generate K, sign K.key F, verify K.pub F.sig F: all exit with 0, and verify does not exit with 0 once the content of F has changed, unless SHA-512 collides or the signature is forged. In each case no file besides the ones named has changed.", "quantifier": "every file content, every choice of unused names, every pass phrase, every outcome of the random source and every state of the other files", "why_tests_cant": "contents, names and file systems are unbounded and the runs build on each other", "anchors": ["src/sigtool.go: main", "src/gen.go: gen", "src/sign.go: signify", "src/verify.go: verify", "src/crypt.go: encrypt, decrypt", "README.md"]}
{"id": "C105", "title": "With the algorithms of the standards nothing is left to assume", "statement": "If SHA-256, SHA-512, HMAC, HKDF, AES-256-GCM, scrypt, X25519 and Ed25519 are the functions their standards define, then for all seeds of a recipient and of a sender (or none), random bytes, block sizes below 2^30 and contents: NewEncryptor, AddRecipient, Encrypt, NewDecryptor, SetPrivateKey and Decrypt all succeed and Decrypt writes exactly the content; and what SignMessage signs, VerifyMessage accepts. There is no further assumption about the algorithms and no exception.", "quantifier": "every pair of seeds, every random bytes, block size, content and delivery of the content", "why_tests_cant": "the algorithms' own properties (decryption undoes encryption, both sides agree on a secret for every pair of keys) hold for inputs of 2^256 and more values", "anchors": ["sign/encrypt.go: Encryptor, Decryptor", "sign/keys.go", "sign/sign.go: SignMessage, VerifyMessage"]}
{"id": "C106", "title": "Parameters in a key file that crash the program", "statement": "Reading a private key file of this package with whatever pass phrase crashes exactly if its salt and sealed key are base64 text and either N is a power of two above 1 and p is 0, or r is 0 (and p positive or at most -2^56), or the parameters pass scrypt's checks and ask for more than 2^48 bytes; or the parameters are fine and the text of the salt has fewer than 16 characters. Key files with the parameters sigtool writes and such a salt never crash. decrypt crashes on a key file from which the line with p was lost.", "quantifier": "every key file and pass phrase, and all 64-bit parameters", "why_tests_cant": "64-bit parameters with products and quotients that wrap and truncate", "anchors": ["sign/keys.go: MakePrivateKey, UnmarshalBinary", "src/crypt.go: decrypt"]}
{"id": "C107", "title": "Only the recipients' private keys open an encrypted file", "statement": "An attacker holds any number of files that Encrypt or a stream writer wrote, with any recipients and senders; everyone's public key and key file; signatures of everyone on messages of his choice; the seeds and pass phrases of some people; and the plaintexts of some of the files. Computing with these in whatever way and for however long - all functions the package uses, forwards, and opening what he has the key for - he gets neither the root key nor any part of an untold plaintext of a file of which he controls no recipient, even if he controls its sender; nor the signature that would tell him who the sender is; nor anyone else's seed or pass phrase. If he controls a recipient he does get them. (Attacker of Dolev and Yao: he may not guess or break the primitives.)", "quantifier": "every set of files, recipients, senders and corrupted people, and every finite sequence of computation steps", "why_tests_cant": "the attacker's computations and the number of files and people are unbounded", "anchors": ["sign/encrypt.go: Encrypt, NewStreamWriter, AddRecipient, wrapKey, NewEncryptor", "sign/keys.go: marshal, ToCurve25519SK, ToCurve25519PK", "sign/sign.go: SignMessage"]}
{"id": "C108", "title": "Nobody else can make a sender's signatures", "statement": "The same attacker, who may also be a recipient: if he can compute the signature that identifies a person he does not control as the sender of a header, that person has made a file with the same ephemeral key, salt and root key; if he can compute the trailer signature of such a person for given contents and HMAC key, that person has made a file with exactly these contents and this HMAC key, to which the whole header contributes. Neither signatures on messages he chose nor the two kinds of signature of a file can take each other's place.", "quantifier": "every set of files, recipients, senders and corrupted people, and every finite sequence of computation steps", "why_tests_cant": "the attacker's computations and the number of files and people are unbounded", "anchors": ["sign/encrypt.go: NewEncryptor, start, Encrypt, encStream.Close", "sign/sign.go: SignMessage"]}
{"id": "C109", "title": "Nobody can check a guess who the recipients or the sender are", "statement": "The attacker of C107, even if he is the sender of a file or one of its recipients, cannot compute the secret shared with a person he does not control or the key for wrapping the root key for that person; so he can neither open what is wrapped for the other recipients nor redo it for a candidate and compare. If he controls no recipient he cannot compute what the sender signed in the header or in the trailer, even if he knows the plaintext, nor open the sender field; so he cannot check the trailer's signature against a candidate's public key. (Whether there is a sender at all can be seen: C115.)", "quantifier": "every set of files, recipients, senders and corrupted people, every candidate, and every finite sequence of computation steps", "why_tests_cant": "the attacker's computations and the number of files and people are unbounded", "anchors": ["sign/encrypt.go: wrapKey, addSenderSig, writeTrailer, start"]}
{"id": "C110", "title": "Private key files as ssh-keygen writes them are loaded, byte by byte", "statement": "For every Ed25519 seed, comment, check word, padding, and way of cutting the base64 text into lines: MakePrivateKey on the text that OpenSSH's format prescribes (the lines that mark begin and end, base64 of the binary format) returns the key of that seed; without a pass phrase, and for every pass phrase, salt and number of rounds with the private section encrypted by AES-256 in CBC or counter mode. PEM decoding and AES are the real ones (FIPS 197, SP 800-38A), only bcrypt_pbkdf is an arbitrary function.", "quantifier": "every seed, comment, pass phrase, salt, line length and both ciphers", "why_tests_cant": "that decryption undoes encryption must hold for all 2^256 keys and all blocks, and texts are unbounded", "anchors": ["sign/ssh.go: parseSSHPrivateKey, parseOpenSSHPrivateKey, extractBcryptIvBlock", "sign/keys.go: MakePrivateKey"]}
{"id": "C111", "title": "A signed file cannot be passed on as another one", "statement": "The attacker of C107, who may be a recipient of signed files: if he can compute a trailer by which a file with header h, root key r and contents x counts as coming from a person he does not control, that person has made a file with this very header - so for the same recipients in the same order -, this root key and these contents. So a recipient can neither pass the contents on to someone else as a file of the sender, nor add or remove recipients.", "quantifier": "every set of files, recipients, senders and corrupted people, and every finite sequence of computation steps", "why_tests_cant": "the attacker's computations and the number of files and people are unbounded", "anchors": ["sign/encrypt.go: start, Encrypt, writeTrailer, wrapKey"]}
{"id": "C112", "title": "Recipients who decrypt other files do not help an attacker", "statement": "The attacker of C107, for whom in addition everyone decrypts whatever files he can compute, as often as he likes and whether or not the rest of the file is in order - only nothing with the header of a file that is to stay secret. He still gets neither the root key of such a file nor any part of its plaintext, the sender's signature, or anyone's seed or pass phrase; and the statements about signatures (C108, C111) still hold. What Decrypt delivers for any input is covered by this: each chunk was sealed with the key that belongs to the header with which the input starts and to a root key wrapped for the person who decrypts.", "quantifier": "every set of files, recipients, senders and corrupted people, every finite sequence of computation steps and of files handed to recipients", "why_tests_cant": "the attacker's computations and the number of files and requests are unbounded", "anchors": ["sign/encrypt.go: NewDecryptor, SetPrivateKey, unwrapKey, Decrypt, decrypt, Encrypt"]}
{"id": "C113", "title": "The project's own test script passes for every input", "statement": "The thirteen sigtool commands of tests.sh from 'generate keys' on, run one after the other on a machine where no call fails: for every file, every choice of unused names, every content of the variable FOO and all random choices, every command that should succeed exits with 0; generate without --overwrite refuses to replace the key pair and changes nothing; both decrypted files equal the original; besides the two key pairs, the signature, the encrypted and the decrypted file nothing has changed. The two checks with the wrong public key do not exit with 0, unless the two public keys have the same 16 byte hash. The five commands of the script that use keys of ssh-keygen all exit with 0 for all such keys, the decrypted file equals the original and only the three output files are new. Two conditions the script does not mention are needed: the names of the public key files given to encrypt must not look like a user name (contain an @ after the first character), and the text of the first public key must not look like an OpenSSH key of another type.", "quantifier": "every file content, every choice of names, pass phrase and seeds, and every state of the other files", "why_tests_cant": "the script runs with one file, one pair of names and random keys; contents, names and keys are unbounded", "anchors": ["tests.sh", "src/sigtool.go: main", "src/gen.go: gen", "src/sign.go: signify", "src/verify.go: verify", "src/crypt.go: encrypt, decrypt"]}
{"id": "C114", "title": "Which files generate writes", "statement": "For every argument of generate there is exactly one direct path B (no detours through ., .., empty words or a trailing slash) that leads lexically to the same place, and the key files are B.key and B.pub: on exit status 0 both hold the new pair and nothing else has changed; otherwise nothing but B.key and temporary files may have changed; without --overwrite the command fails and does nothing if one of the two exists. Arguments that lead to the same place have the same effect; in particular a trailing slash does not matter, so that 'generate dir/' does not write into dir. If the last word of the argument is a proper name, B.key and B.pub are where the argument with .key and .pub appended leads; they are these very names exactly if the argument is a direct path.", "quantifier": "every argument, option and state of the file system", "why_tests_cant": "names are unbounded, with any number of . and .. words", "anchors": ["src/gen.go: gen"]}
{"id": "C115", "title": "Whether a file has a sender can be seen in its last byte", "statement": "The format fills the trailer of a file without sender with random bytes, so that it should look like one with a sender. It does not: with Ed25519 as RFC 8032 defines it, every file with a sender, written by Encrypt or by a stream writer, ends in a byte of at most 16, and every file without one ends in the last of the 64 random bytes. So 239 of 256 files without a sender are recognised by anybody who sees the last byte.", "quantifier": "every sender, recipients, random bytes, block size, contents and destination", "why_tests_cant": "a statement about every signature that Ed25519 can produce", "anchors": ["sign/encrypt.go: writeTrailer, Encrypt, encStream.Close"]}
{"id": "C116", "title": "Files that differ in recipients, sender or plaintext cannot be told apart", "statement": "The attacker of C107 compares what he computes: are two results the same bytes, does a box open, does a signature verify, how long is a result. Take two worlds with the same block sizes, salts, nonces, numbers of recipients and chunk lengths that differ in this: who the recipients are whom he does not control; and, for files of which he controls no recipient, who the sender is (not whether there is one, see C115) and whether the plaintext he was told is the true one or made up. Every comparison comes out the same in both. So he cannot find out who the other recipients are even if he is a recipient himself, nor, if he is none, who the sender is, nor can he check a guess about the plaintext. A recipient can check what he was told about the plaintext.", "quantifier": "every pair of such worlds, every set of corrupted people, every computation and comparison", "why_tests_cant": "the attacker's computations, the number of files and of people are unbounded", "anchors": ["sign/encrypt.go: Encrypt, NewStreamWriter, AddRecipient, wrapKey, addSenderSig, writeTrailer, start"]}
{"id": "C117", "title": "A directory of keys and signatures", "statement": "Programs save public keys, private keys and signatures with Serialize under names of their choice, with or without overwriting, some of the calls fail, and other programs change files in between. After any such history, if the last thing that happened to a name is a save that returned nil, the readers return what was saved: the same key, the same signature, the private key with its pass phrase and with no other unless SHA-512, scrypt or the authenticated encryption is broken; and the file of a private key is readable by its owner only. Failed saves and saves of other names have no effect on a name. Without the overwrite flag a name that is in use is refused and nothing is done. If the machine stops at any moment, every name holds what was there before the history or something complete that was saved under it. A public key and a signature that are loaded again match, VerifyFile accepts the signed contents, and other contents only with a collision or forgery.", "quantifier": "every history of saves, failures and foreign changes, every crash point, every key, signature, comment, pass phrase", "why_tests_cant": "histories and crash points are unbounded; the tests of the package check one history without failures", "anchors": ["sign/keys.go: PublicKey.Serialize, PrivateKey.Serialize, ReadPublicKey, ReadPrivateKey", "sign/sign.go: Signature.Serialize, ReadSignature, SignFile, VerifyFile", "sign/sign_test.go: TestSignSimple, TestSignRandBuf"]}
{"id": "C118", "title": "A file of one kind is not read as another", "statement": "A file to which a public key, a private key or a signature was saved is not accepted by the readers of the other two kinds.", "quantifier": "every saved key or signature, every history, every pass phrase", "why_tests_cant": "a statement about every key, comment and pass phrase", "anchors": ["sign/keys.go: UnmarshalBinary", "sign/sign.go: ReadSignature, makeSignature", "sign/sign_test.go: TestSignSimple"]}
{"id": "C119", "title": "Keys can be tried one after the other", "statement": "A program may call SetPrivateKey on one Decryptor with one pair of keys after the other. However many calls were refused (an error, or a recovered panic), with whatever keys and claimed senders, a further call returns what it would have returned as the first one, and if it returns nil nothing that the Decryptor does later differs; until then AuthenticatedSender stays false. So for every genuine container the right keys decrypt it after any number of refused attempts. After calls that succeeded the same holds, except that AuthenticatedSender stays true once it was true (C62).", "quantifier": "every container, every sequence of attempts with any keys", "why_tests_cant": "sequences of attempts and keys are unbounded; the test tries one wrong sender once", "anchors": ["sign/encrypt.go: SetPrivateKey, verifySender, unwrapKey", "sign/encrypt_test.go: TestEncryptSenderVerified"]}
{"id": "C120", "title": "A signature vouches for one file only", "statement": "If VerifyFile accepts one signature under one public key for two files, the files have the same content. So a publisher cannot exchange a file under a signature that others already checked.", "quantifier": "every public key the library accepts, every signature and every pair of files", "why_tests_cant": "a statement about all keys, all signatures and all pairs of files", "anchors": ["sign/sign.go: VerifyFile, VerifyMessage", "sign/keys.go: MakePublicKeyFromString", "src/verify.go: verify"]}
{"id": "C121", "title": "What AddRecipient accepts, somebody can decrypt", "statement": "If AddRecipient returned nil for a public key, there is a private key that SetPrivateKey accepts for the file and with which Decrypt delivers the plaintext; nobody encrypts for an addressee who does not exist.", "quantifier": "every public key the library accepts, every sender, file and random choices", "why_tests_cant": "a statement about every public key and all private keys", "anchors": ["sign/encrypt.go: AddRecipient, wrapKey, SetPrivateKey", "sign/keys.go: MakePublicKeyFromString, makePublicKeyFromBytes"]}
{"id": "C122", "title": "A private key file that somebody changed is noticed", "statement": "If somebody who does not know the pass phrase changes a private key file, loading it with the pass phrase fails or yields the key that was in it.", "quantifier": "every private key file in the formats the package reads, every change of it", "why_tests_cant": "a statement about every change of every file; what follows from a change (a stolen key) shows only in two signatures together", "anchors": ["sign/keys.go: PrivateKey.UnmarshalBinary, makePrivateKeyFromBytes", "sign/ssh.go: parseOpenSSHPrivateKey"]}
{"id": "C123", "title": "A signature belongs to one public key", "statement": "If one signature is accepted under two public keys, for the same or for different files, the keys are equal: nobody can claim somebody else's signature as his own by presenting another key. For the verify command this holds unless two keys have hashes that agree in the first sixteen bytes.", "quantifier": "every signature, every pair of public keys the library accepts, every pair of files", "why_tests_cant": "a statement about all keys and all signatures", "anchors": ["sign/sign.go: VerifyFile, VerifyMessage, IsPKMatch", "src/verify.go: verify"]}
{"id": "C124", "title": "What is printed does not give the contents away", "statement": "Somebody who has an encrypted file, and everything the program printed while it was written or read, but none of the private keys, cannot read the file. This holds at every debug level.", "quantifier": "every debug level, every file, sender, recipients and keys", "why_tests_cant": "a statement about every file and everything a reader could do with the printed text", "anchors": ["sign/encrypt.go: Debug, debug, start, SetPrivateKey", "src/sigtool.go: main (--debug)"]}
{"id": "C125", "title": "A key does not share memory with the program", "statement": "What a program does with its own memory does not change a key: neither writing to the buffer a private key was made from, nor writing to what ToCurve25519SK, ToCurve25519PK or Hash returned (for instance wiping the Curve25519 secret after use). The key goes on to act as the key that was loaded.", "quantifier": "every memory, every key and every history of calls and writes", "why_tests_cant": "histories of writes and uses are unbounded, and no test writes to a returned slice", "anchors": ["sign/keys.go: MakePrivateKey, makePrivateKeyFromBytes, ToCurve25519SK, ToCurve25519PK, Hash", "sign/sign.go: SignMessage", "sign/encrypt.go: SetPrivateKey, AddRecipient"]}
{"id": "C126", "title": "An encrypted file hides its contents from anyone without a recipient's key", "statement": "Key pairs are drawn for the recipients; somebody who sees the public keys picks two plaintexts of the same length; one of them is encrypted, with fresh random bytes, with Encrypt or with a stream writer. From the file he tells which of the two it was only as well as he can be turned - by explicit constructions that run him once - into somebody who tells X25519 with HKDF, AES-GCM (with nonces that do not repeat), HKDF and SHA-256 of the root key, or HMAC (if there is a sender) from chance. He may know the sender's secret key, and use randomness.", "quantifier": "every number of recipients, every sender or none, every block size, every pair of plaintexts of the same length below 2^32 blocks, every randomised strategy of the spy", "why_tests_cant": "a statement about all strategies and about probabilities over all random choices", "anchors": ["sign/encrypt.go: NewEncryptor, AddRecipient, wrapKey, Encrypt, start, encrypt, writeTrailer, addSenderSig", "sign/stream.go: NewStreamWriter, Write, Close"]}
{"id": "C127", "title": "An encrypted file does not say whom it is for", "statement": "Two groups of the same number of people draw key pairs. Somebody sees all public keys, picks a plaintext and any number of further recipients whose secret keys he has, and gets a file made for one group and his own recipients. Which group it was he tells only as well as he can be turned, by explicit constructions, into somebody who tells the keys agreed on with the recipients, and AES-GCM boxes under random keys, from random bytes. So neither outsiders, nor the sender's secret key, nor a recipient's, give the other recipients away.", "quantifier": "every size of the groups, every number of further recipients, every sender or none, block size, plaintext and strategy", "why_tests_cant": "a statement about all strategies and about probabilities over all random choices", "anchors": ["sign/encrypt.go: AddRecipient, wrapKey, start", "sign/hdr.proto: header, wrapped_key"]}
{"id": "C128", "title": "Many files for the same recipients hide their contents", "statement": "Somebody sees any number of files for the same recipients, one after the other, and picks two plaintexts of the same length for each when he has seen the files before it; encrypted is always the first one or always the second. Which it was he tells only as well as the sum of what he achieves on single files (with explicit constructions), so files do not give each other away although recipients and sender use the same keys in all of them.", "quantifier": "every number of files and recipients, every sender or none, every adaptive randomised strategy", "why_tests_cant": "a statement about all strategies over unbounded sequences of files", "anchors": ["sign/encrypt.go: NewEncryptor, AddRecipient, Encrypt", "sign/stream.go: NewStreamWriter, Write, Close"]}
{"id": "C129", "title": "One key for signing files and for sending encrypted ones", "statement": "A key pair is drawn. Somebody who sees the public key has files signed with SignFile and encrypted files sent by its owner (with Encrypt or a stream writer, to recipients and with plaintexts, block sizes and random bytes of his choice), each use chosen when he knows the results of those before it. That he then presents contents nobody signed with a signature that VerifyFile accepts is at most as probable as that the forger of plain Ed25519 signatures made from him, by an explicit construction, succeeds, or that two strings which occur have the same SHA-512 hash. So the signatures inside encrypted files cannot be passed off as signatures of files.", "quantifier": "every adaptive randomised strategy with any number of uses", "why_tests_cant": "a statement about all strategies over unbounded sequences of uses, and about probabilities", "anchors": ["sign/sign.go: SignFile, SignMessage, VerifyFile, VerifyMessage", "sign/encrypt.go: NewEncryptor, addSenderSig, writeTrailer, AddRecipient, Encrypt", "sign/stream.go: NewStreamWriter, Write, Close"]}
{"id": "C130", "title": "Nobody can make encrypted files in my name", "statement": "A key pair is drawn. Somebody who sees the public key has files signed and encrypted files sent by its owner (as in C129; he may be the recipient). That he then presents a file, and any private key to read it with, that is shown as coming from the owner (AuthenticatedSender, with the owner's public key given) but (a) belongs to no session of the owner, or (b) decrypts, without an error, to contents the owner did not send, is at most as probable as an Ed25519 forgery by an explicit forger made from him, or two different strings with the same hash.", "quantifier": "every adaptive randomised strategy with any number of uses, every file and private key presented", "why_tests_cant": "a statement about all strategies over unbounded sequences of uses, and about probabilities", "anchors": ["sign/encrypt.go: NewDecryptor, SetPrivateKey, AuthenticatedSender, Decrypt, NewEncryptor, addSenderSig, writeTrailer, Encrypt", "sign/stream.go: NewStreamWriter, Write, Close", "sign/sign.go: SignFile"]}
{"id": "C131", "title": "Nobody but a recipient can change a file", "statement": "Key pairs are drawn for the recipients. Somebody who sees the public keys picks a plaintext; it is encrypted (with Encrypt or a stream writer) for them with fresh random bytes; he sees the file and gives a recipient of his choice another file with the same header. That the recipient, with NewDecryptor, SetPrivateKey and Decrypt, gets anything but an initial part of the plaintext, or, without an error, anything but its first chunks, is only as probable as that explicit players made from him beat the primitives (the key agreement with HKDF, AES-GCM, HKDF on the root key), or that a wrapped key opens for the wrong recipient.", "quantifier": "every number of recipients up to 15885, every sender or none, every block size below 2^30, every delivery of input and changed file, every destination, every randomised strategy", "why_tests_cant": "a statement about all strategies and about probabilities over all draws", "anchors": ["sign/encrypt.go: NewEncryptor, AddRecipient, Encrypt, NewDecryptor, SetPrivateKey, Decrypt", "sign/stream.go: NewStreamWriter, Write, Close"]}
{"id": "C132", "title": "What a recipient's reaction tells", "statement": "Somebody gives a recipient of a file other files with the same header, and sees for each how many bytes he gets and whether there is an error. All these reactions can be computed from the file and the changed file alone, without any key, if one knows whether the file is signed (chunk after chunk as long as the two agree; 80 00 00 00 ends a file anywhere; the trailer counts only if the file is signed) - unless a changed file contains an AEAD forgery or another signature of the same message. They do tell whether the file is signed: with the last 64 bytes replaced, an unsigned file is read in full, a signed one without its last chunk and with an error (except where the last chunk is empty: then the trailer is read by nobody).", "quantifier": "every sending session of at most 2^32 chunks, every recipient, every changed file with the same header, every delivery, every destination that takes what it is given", "why_tests_cant": "the changed files are arbitrary", "anchors": ["sign/encrypt.go: NewDecryptor, SetPrivateKey, Decrypt, decryptBlock, NewEncryptor, AddRecipient, Encrypt", "sign/stream.go: NewStreamWriter, Write, Close"]}
{"id": "C133", "title": "Seeing the recipients' reactions does not help to read a file", "statement": "Key pairs are drawn; a spy who sees the public keys picks two plaintexts of equal length; one is encrypted (Encrypt or stream writer) with fresh random bytes. Before he says which, he may have the recipients read, one after the other, any number of changed files with the same header, each chosen after seeing how many bytes the recipients got from the earlier ones and whether there was an error. He does better than a spy who asks nobody (bounded as in C126) only by the probability that a question contains a forged chunk (bounded as in C131) or a second signature of what the sender signed. If he sees the bytes the recipient gets, one question suffices to know everything: whatever stands behind a file is ignored.", "quantifier": "every number of recipients up to 15885, every sender or none, every block size below 2^30, every delivery, every destination that takes what it is given, every randomised adaptive strategy with any number of questions", "why_tests_cant": "a statement about all adaptive strategies and about probabilities over all draws", "anchors": ["sign/encrypt.go: NewEncryptor, AddRecipient, Encrypt, NewDecryptor, SetPrivateKey, Decrypt", "sign/stream.go: NewStreamWriter, Write, Close"]}
{"id": "C134", "title": "What `sigtool encrypt` leaves hides contents and recipients", "statement": "Key pairs are drawn; the public keys lie in files or in authorized_keys, where the arguments of sigtool encrypt name them. The command is run on one of two plaintexts of equal length picked by a spy who knows the public keys; whatever was drawn, it exits with 0 if nothing fails; and from the output file (or standard output) the spy tells which plaintext it was no better than explicit players made from him beat the primitives. The same for telling for which of two groups of people the command was run, even if the spy has any number of recipients of his own added.", "quantifier": "every file system, set of options and arguments under which the command can work, every way the input arrives, every sender or none, every randomised strategy of the spy", "why_tests_cant": "a statement about all strategies and about probabilities over all draws, for every environment", "anchors": ["src/crypt.go: encrypt", "src/sigtool.go", "sign/encrypt.go: NewEncryptor, AddRecipient, Encrypt"]}
{"id": "C135", "title": "Between `sigtool encrypt` and `sigtool decrypt` nobody can change a file unnoticed", "statement": "A file goes from the command encrypt to the command decrypt of a recipient. Somebody who sees the public keys, picks the plaintext and sees the file gives a recipient of his choice another file with the same header. That decrypt then prints something that is no initial part of the plaintext, or exits with 0 having printed anything but its first chunks, or leaves in the output file neither what was there before nor (with exit status 0) the first chunks of the plaintext, is only as probable as that explicit players made from him beat the primitives (or that a wrapped key opens for somebody else).", "quantifier": "every environment of the two commands, including failing writes, sync, close and rename on the recipient's side; every number of recipients up to 15885, every sender or none, every block size below 2^30, every randomised strategy", "why_tests_cant": "a statement about all strategies, all environments and about probabilities over all draws", "anchors": ["src/crypt.go: encrypt, decrypt", "sign/safefile.go", "sign/encrypt.go: NewEncryptor, AddRecipient, Encrypt, NewDecryptor, SetPrivateKey, Decrypt"]}
{"id": "C136", "title": "No signature can be forged through the commands", "statement": "Someone runs sigtool sign with his private key on whatever files others want, with any options, outputs and failures, and lets them see the exit status, the file system calls and the standard output of every run; he uses the key for encrypted files too. A stranger who sees all this can make files and arguments with which sigtool verify exits with 0 under his public key, on a file whose content he was never told to sign, only with the probability of forging an Ed25519 signature or finding SHA-512 collisions: forgers as fast as the stranger are given explicitly.", "quantifier": "all strangers (each run may depend on what was seen before, including runs that fail), private key files with or without pass phrase, options, file systems and failures of sign; all files, options and arguments of verify; all uses of the key for encryption", "why_tests_cant": "unforgeability is about every adaptive strategy; a test shows one rejected signature", "anchors": ["sigtool.go: sign, verify", "sign/sign.go: SignFile, VerifyFile, MarshalBinary, UnmarshalBinary", "sign/keys.go: ReadPrivateKey, MakePrivateKey"]}
{"id": "C137", "title": "One key pair may be used for signing, sending and receiving", "statement": "A private key of this package is an Ed25519 key for signatures and, converted, an X25519 key for encrypted files. Whoever sees any number of its signatures, of encrypted files it sends, and of decrypting arbitrary files with it, whole or through a stream, by any calls in any order (how each call ended, what it delivered, and whether the sender was said to be authenticated), each depending on what came before, cannot present a signature accepted for a file that was not signed, except with the probability of forging an Ed25519 signature when points are also multiplied by the scalar that belongs to the key, or of finding SHA-512 collisions: such a forger is given explicitly.", "quantifier": "all strategies of the stranger, all readers (also malformed files, short and failing reads), all sequences of calls on the Decryptor, senders and destinations, all plaintexts, recipients, block sizes and random bytes", "why_tests_cant": "it is about every adaptive strategy and about the interplay of two uses of the same secret", "anchors": ["sign/keys.go: ToCurve25519SK", "sign/encrypt.go: NewDecryptor, SetPrivateKey, Decrypt, NewEncryptor, AddRecipient, Encrypt", "sign/sign.go: SignFile, VerifyFile"]}
{"id": "C138", "title": "At every moment a run has written only what it is meant to write", "statement": "However a command ends - success, error, crash, killed, power lost, failing standard output or disk - what is or ever was in standard output (messages aside) or in a file written by it is: for decrypt a beginning of the plaintexts of genuine chunks, each in its place, of a container whose header opens for the private key and is acceptable for the sender asked for (never an unauthenticated byte, none twice or out of order); for encrypt a beginning of the one container of the input for the recipients; for sign a beginning of the signature's text; for generate a beginning of the text of the private key file (secret sealed) or of the public key file; for verify, help and option errors nothing.", "quantifier": "all command lines, key files, inputs (valid, damaged, hostile), file systems, failing writes/sync/close/rename, and every prefix of the run's file system calls", "why_tests_cant": "it is about every way of failing and every moment of the run; tests look at the final state of a few runs", "anchors": ["src/sigtool.go: main", "src/gen.go", "src/sign.go", "src/verify.go", "src/crypt.go: encrypt, decrypt", "sign/safefile.go", "sign/encrypt.go: Encrypt, Decrypt"]}
{"id": "C139", "title": "What decrypt -v writes comes from the sender, even if another recipient is dishonest", "statement": "If several people receive a signed container, what the library or `sigtool decrypt -v sender` writes for one of them, with exit status 0 and the sender authenticated, was written by the sender. (False: every other recipient can make, from the container, a file with any contents that is accepted in that way.)", "quantifier": "all containers with any recipients, block sizes and contents, all pairs of recipients, all contents put in place, all ways the changed file is delivered, all key files and output options of the command", "why_tests_cant": "a test can show one forged file but not that the attack works for every container and every contents, nor (for what remains true) that nothing else works", "anchors": ["sign/encrypt.go: decrypt (zero-sized chunk with EOF), processTrailer, SetPrivateKey", "src/crypt.go: decrypt"]}
