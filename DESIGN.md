# Formal model of google/private-join-and-compute in Lean 4

## 1. Approach

The C++ is read as text and transcribed function by function into total,
computable Lean functions over `Int`, `Nat`, `List`, `Option` and structures.
Stateful classes become a state structure plus a step function; histories are
lists of calls. Threads become an arbitrary interleaving of the atomic
(mutex-protected) operations. Randomness becomes explicit arguments over which
the theorems quantify. External libraries become parameters.

Outcomes are in the type `Res`:

* `ok a`       - the C++ returns normally (`OkStatus`, `StatusOr` with a value)
* `err code`   - a non-OK status
* `crash`      - a failed `CHECK`/`CRYPTO_CHECK`, `.value()` on an error, abort
* `ub`         - C++ undefined behaviour (out-of-range index, bad shift, ...)

so "returns an error" and "kills the process" are never confused, and undefined
behaviour is never silently given a meaning.

Layout of `lean/Verif`:

* `Model/*.lean`  definitions only, each citing file and lines of /repo
* `Lemmas/*.lean` helper lemmas
* `Props/*.lean`  the property theorems (named `Cnn_...`), with a small
  specification where needed and, beside each theorem, an `example` showing that
  a concrete nontrivial case meets the hypotheses

Theorem names start with the property identifier. A property that is false of
the code has a theorem `Cnn_..._fails` proving the negation from a concrete
witness, and a `Cnn_..._partial` theorem with the weaker true statement.

## 2. Plan per property

| id | what is modelled | how it is proved |
|----|------------------|------------------|
| C01-C03 | client and server message functions, Paillier, EC cipher over an abstract prime-order group with an injective point encoding; `std::sort` as any sorted permutation; `std::set_intersection` as the merge loop | refinement: run of the protocol = set specification; uses C11, C12, C18, C20 |
| C04-C09 | `Handle` of both parties as step functions over arbitrary message histories | invariants by induction on the history; C06 and C09 are false: negation by witness and partial theorem |
| C10 | RPC adapter around an arbitrary server function | case analysis for all servers |
| C11-C15 | Paillier / Damgard-Jurik with precomputation tables, CRT, binomial expansion, decryption recursion | number theory in `ZMod (p^(s+1))`, induction on j and s |
| C16, C17, C67 | table-based exponentiation loops | loop invariants by induction on the exponent bytes/bits |
| C18-C26 | EC cipher, ElGamal over an additive commutative group of prime order | group algebra; expression induction for C24; list induction for C25 |
| C27-C29 | curve arithmetic over `ZMod p`, try-and-increment with fuel, padding loop | field reasoning; C28 false at one boundary: witness on P-256 and partial theorem |
| C30, C31, C65 | random oracle, PRF, sampling loops with fuel; hash/HMAC/RNG are parameters | arithmetic bounds; induction on fuel |
| C32, C33 | BigNum wrapper | arithmetic; C33 false for `ModNegate`: witness and partial |
| C34 | Shanks tables | induction on table; int shift overflow is `ub` |
| C35-C38 | CSV splitter as a state machine on bytes; dataset readers/writers; generator | induction on input; refinement |
| C39-C41 | files as byte lists; varint; record reader/writer; `fgets` line reader | round-trip induction; truncation lemma for every prefix |
| C42, C43, C46 | merging reader with heap as a multiset of (key, index) | invariant: emitted + remaining is a permutation, sortedness |
| C44, C45 | sharding writer as a state machine, threads as interleavings | invariant over all operation sequences |
| C47 | chunk/thread partition, shards, merge | composition of C44, C46 |
| C48 | JoinPathImpl | induction on the list |
| C49-C53 | Pedersen over Z_n, both parameter proofs with the hash as parameter | algebra in `ZMod n`; special soundness from two transcripts |
| C54-C56 | Camenisch-Shoup for every s and vector length | shares the binomial/decryption lemmas of C11; C56 false: witness and partial |
| C57-C62 | DY VRF and BB oblivious signature, provers and verifiers | completeness: reconstructing the first message; special soundness |
| C63, C75, C76 | the same verifiers on arbitrary messages | a safety predicate (`Res.Sat`) pushed through every step; C63 false: witnesses from an honest toy run with one field removed, and partial theorem |
| C64, C77 | key utilities over the file model and the proto codec | round trip through C39 and the wire codec; appended key messages by the merge of fields |
| C65 | sampling functions over an arbitrary random source | arithmetic |
| C66 | `ExecuteProtocol` over an arbitrary network | case analysis; with C01 for the honest server |
| C67 | Montgomery numbers with an arbitrary radix | modular algebra |
| C68, C71, C74 | challenge strings as concatenations of length-delimited protos | injectivity of the wire encoding; prefix comparison |
| C69 | Pedersen parameters: generation, proto | arithmetic, round trip |
| C70 | VRF verifiers on arbitrary messages | case analysis: every path returns |
| C72 | challenge string of the Pedersen parameter proofs (plain concatenation) | false: witness; partial for equal sizes |
| C73 | VRF key proof | special soundness |
| C78 | ec_point_util | case analysis over `EcGroup.Lawful` |
| C79, C80 | key generation with the prime generator as a parameter, key protos | composition with C11, C54; byte round trips; C80 false for two kinds of hostile protos: witnesses and partial |
| C81 | BigNum wrapper | integer arithmetic |
| C82 | cipher export and import | byte round trip, cancellation of the inverse key |
| C83 | generate_dummy_data over the file model | C35-C38 for the files, C66 for the two programs; first line false: witness and partial |
| C84 | the protocol messages as protobuf wire bytes (Model/ProtoWire) | induction over fields; specification of raw fields and of merging in Props/ProtoWire; malformed tags by the same induction |
| C85 | client and server programs over a connection that carries bytes up to a limit | simulation against the object-level network of C66; size bounds of every message |
| C86 | private-key Paillier encryption as a function of its two draws | primitive roots modulo both primes, lifted to prime powers; CRT |
| C87 | one ciphertext as a function of the private key | unique discrete logarithms in a group of prime order (hypothesis: the group has `order` elements) |
| C88 | ElGamal encryption and re-randomization as functions of their draw | unique discrete logarithms, as C87 |
| C89 | Pedersen openings of generated parameters, counted over all draws | counting a residue class of the order of h below n |
| C90 | parameter proofs as functions of their masks, for a fixed challenge (`StatClose` in Lemmas/Stat: no event separates the two experiments) | shifting masks by the secret, counting the masks that leave the range, union bound |
| C91 | VRF key and evaluation proofs as functions of their masks, for a fixed challenge | as C90; the simulator solves the verification equations for the first message |
| C92 | the file object with its stream pointer (null, open, already closed), error indicators, device faults and destructor | invariants over all call sequences; false for a failing `fclose`: witness and partial theorem; agreement with the reader and writer models of C39-C46 |
| C93 | argument checks of the parameter proofs and of the VRF constructor | case analysis |
| C94 | VerifyResponse for arbitrary responses and proofs; `RespAccepted` lists the relations acceptance establishes | inversion of the verifier; cancellation in the group of units modulo N^(s+1), then the ranges turn a congruence modulo N^s into an equation |
| C95 | VerifyRequest for arbitrary requests and proofs; `ReqAccepted` lists the relations | inversion of the verifier; quotient of two accepted proofs, decrypted with the signer's key |
| C96 | `Model/Concurrent.lean`: `Handle` cut into its accesses to shared memory, any number of calls and the waiting main thread, any schedule | false: every run that completes has a race (induction to the first write of the flag); without overlap no other location is raced on |
| C97 | same model; the sequential histories of C04 as specification | false: witnesses for two starts (deleted object used) and two answers; proved for calls that do not overlap (refinement to `Server.handle`) and, in part, for all schedules with one start request |
| C98 | `Model/Names.lean`: string views as pointer into an allocation plus length; what the C library reads through `data()` | false: two witnesses; exact conditions; partial theorems under them |
| C99 | `Model/Names.lean`: a tree of files, `create_directories` and `remove_all` on it | induction over the components of the path |
| C100 | request generation as a function of its 7 L + 7 + K masks, for a fixed challenge | as C90, with a second bad set (masks of the encryption randomness that are not units), counted by the totient function |
| C101 | response generation as a function of its masks, for a fixed challenge; `Opens` says which values a request decrypts to | as C100; the bound depends on how much larger the Pedersen modulus is than the encryption modulus, and a separating event shows that this cannot be avoided |
| C102 | `decryptRequest`: what the signer decrypts from a request, as a function of the blinding factors | the map (a, b) to (a M mod q, b + floor(a M / q)) is injective and leaves the ranges for few draws only |
| C103 | the server's answer as a function of its two Paillier draws | Jacobi symbols are multiplicative and the mask has symbol 1; two ciphertexts of one message with equal symbols differ by a power of the mask, so that one experiment is the other with the exponent rotated |
| C104 | the server's first message in a run with a random oracle | hybrid over the identifiers: the difference of two neighbours is the advantage of an explicit algorithm against decisional Diffie-Hellman; then a permutation of the identifiers |
| C105 | the client's message in such a run | the same hybrid; a permutation that keeps the server's list |
| C106 | the client's message as a function of its key and of the draws of its encryptions | the draws are in bijection with the units modulo n and private encryption is textbook encryption, so a second hybrid over the values replaces ciphertexts by random units; then as C105 |
| C107 | everything the client receives in a run, as a function of the server's draws | closed form of the answer when hash values do not collide (union bound); the hybrid of C104 with the Paillier draws as coins; permutation of identifiers for the first message, C103's rotation for the answer |
| C108 | the record reader on an arbitrary file, against rules (`Parse`) stated without the reader | every file is divided by the rules (strong induction), and the reader follows them (induction over the derivation); uniqueness follows |
| C109 | the random oracles and number conversions of the Java and Python packages beside the C++ ones | each loop is shown equal to the C++ loop (induction over the digests); conversions by induction over bytes and 32-bit units |
| C110 | the three hash-to-curve loops, any square root that returns a root | one round of each is characterised by the points of the curve at that x-coordinate; the loops then agree by induction over the rounds |
| C111 | `ECGroup::Create` (Model/EcCreate.lean) and the parameters of P-224, P-256 and P-384 | primality by Pratt certificates; the order n of the base point by a chain of slopes from G to -G; no point with y = 0 by an inverse of x^q - x modulo the cubic; at most 2q + 1 points, fewer than 3n, and not 2n (Cauchy), so n. The certificates are generated (Lemmas/Primes.lean, Lemmas/NistCerts.lean), checked by the kernel and need not be trusted |
| C112 | the Java and Python ciphers (Model/JavaCipher.lean, Model/PyCipher.lean) beside the C++ one, with scalar multiplication specified by Mathlib's group law (`mulRaw`) and the Python library's decoder either BoringSSL's or OpenSSL's (`sec1Decode`) | the decoders are compared byte string by byte string (Lemmas/InteropCipher.lean); on a decoded point all three apply the same scalar modulo the order and write the same encoding; hashing by C110, order by C111 |
| C113 | a left-or-right game: the spy sees a joint public key (one fresh share between known ones) and asks adaptively for encryptions of one of two messages or re-randomizations of one of two ciphertexts; all answers come from the modelled `ElGamal` functions | hybrid over the questions; a Diffie-Hellman triple makes the written-out algorithm `cpaAlg` play two neighbouring hybrids, and a random triple gives masks that are uniform up to the missing scalar 0 (`2/(order-1)` per question); `C113_rogue_share_fails` for shares chosen after seeing the others, `C113_nist` on the NIST curves |
| C114 | `GetPointByHashingToCurveSswuRo/Nu` (ec_group.cc) over a library of four functions, and RFC 9380 (expand_message_xmd, hash_to_field, simplified SWU map) written out for the two suites, checked on vectors of the RFC | the map always lands on the curve: algebra in ZMod p (Euler's criterion, the two candidates, the exceptional case) with the suite's constants checked by the kernel; opposite elements give opposite points; from the prime order of the curves (C111) the value is never infinity for Nu, and for Ro exactly when the summands are opposite; `C114_always_encrypts_fails` by hash functions that make them so |
| C115 | class `PRNG` of ssl_util.py: buffer, counter and limit, with SHA-512 a function | the bytes still to come (`remaining`) are an invariant; every `GetRand` is rejection sampling (`Draw`) from their front and leaves the rest, so a history of calls is rejection sampling on the stream of the seed; counting chunks gives that the draws are unbiased |
| C116 | the Python classes `BigNum` and `BigNumCache` as objects in a heap, with the class attributes; the library functions exact; a program is a list of calls | frame: which cell a call can write, case by case; by induction an immutable object keeps its number, unless it is shifted in place (`C116_immutable_fails`); results of the methods from the operations on cells |
| C117 | `TempBNs`, `OpenSSLHelper`, `ModExp`, `ModInverse`, `GetRandomInRange` of ssl_util.py over a store of numbers that the library has allocated, freed or never made; freeing twice or reading a freed number is `ub` | an invariant of the constructor's loop (which handles are new, which values they hold) gives the values in the block and that the exit frees exactly those; the functions follow |
| C118 | `ECPoint` and `GetRandomGenerator` of elliptic_curve.py: objects are cells of a heap with coordinates, arguments are points, `BigNum`s or plain integers | `Holds` relates a cell to an element of Mathlib's group of the curve; every call preserves it and the frame; encoding and decoding from C112 |
| C119 | `IsPrime`, `IsSafePrime`, `IsBitSet`, `BitLength` and `__hash__` of the Python `BigNum` (Model/PyPrime.lean); the library's test is a function of random choices with the documented error bound `4^-k`, a Python set is a list of (hash, object) | the number of rounds is characterised as the least sufficient one (logarithms in Mathlib); the error probabilities by counting choices; witnesses for the library error -1, for `IsSafePrime(2)` and for sets |
| C120 | `OpenSSLInit` and the lock callback (Model/OpenSslInit.lean): threads are lists of actions interleaved by an arbitrary schedule; `call_once` in single steps; unlocking a mutex one does not have and a lock number past the table are undefined | invariants kept by every step of every thread: how far the initialisation is, who has which mutex; no deadlock by induction on the lock numbers; `C120_context_fails` by two schedules |
| C121 | a left-or-right game around the modelled `generateKeyPair`, `newPublic` and `encrypt`: the generator's base, the private exponents and the randomness are uniform draws of `RelativelyPrimeRandomLessThan` | two nested hybrids (questions, components): Diffie-Hellman turns the masks into random 2n^s-th powers, composite residuosity (the same problem as in C106, squared) into squares of random units, and those hide `(1+n)^m` perfectly because `1+n` has odd order. The private exponents are below `n`, so the argument of the original paper (exponents hidden modulo `n^s`) does not apply, which is why Diffie-Hellman is assumed too |
| C122 | a real game around the modelled `getRandomGenerator`, `generatePrivateKey` and `Vrf.apply`, an ideal game with random points; the public key and the proofs are not shown to the spy (they are commitments and zero-knowledge proofs, C91) | hybrid over the messages; the algorithm `prfAlg` makes generator and values from the powers of the unknown scalar with polynomials that have the other messages as roots; `C122_nist` on the NIST curves; `C122_range_fails` for messages that agree modulo the order |
| C123 | a signer is a decision tree of hash questions (`Prog`, Lemmas/Oracle.lean); SHA-512 is random on a finite set that contains what is hashed and any function elsewhere; `RandomOracleSha512`, `VerifyResponse` and the challenge are the modelled functions | each question is a success with probability at most 2^-chal because a wrong response has one acceptable challenge per hashed string (C94) and the hashed string fixes the response (C74); union bound by induction over the tree; `C123_reached` shows the bound is tight |
| C124 | provers as in C123 that output statement and proof; the second run answers as the first up to the question the proof is made for (`Prog.rewind`); the verifications are the modelled functions | the forking lemma by induction over the decision tree (`fork_bound`, Lemmas/Fork.lean), that a verification looks at one hash value (`verifyKey_hash` and others), that the hashed string fixes the statement and first message (C71, C74), then C73, C59, C95; examples with honest provers that are accepted with probability 1. Not done for the Pedersen parameter proofs, whose hashed strings do not fix the statement (C72) |
| C125 | provers as in C123 that output a proof for fixed parameters; both verifications are the modelled functions | false for `VerifyParamsProof`: a witness that re-cuts a string of bytes 01 after the challenge is known (`C125_untrusted_fails` for every hash function and every number of repetitions from 2 on, `C125_one_hash_fails` as a prover); true for fixed lengths of the first messages (`C125_fixed_lengths_partial`: `search_bound`, C52, injectivity of the hashed string for fixed lengths C72). Trusted moduli: `C125_trusted` by `search_bound` and C52_safe_modulus; `C125_trusted_fails` for g = n - h |
| C126 | the hash loop, the PRF recursion and the drawing loops with a number of rounds after which `none` means "has not returned"; a hash function is a table of uniformly random blocks for every string the loop can ask (`blockHash`), HMAC under the key likewise | `chain_bound` (Lemmas/Chain.lean): a loop over a random function ends like independent draws unless it meets a string again; the unsuitable x-coordinates are counted from the number of points (`badX_card`); exact counts for the drawing loops; PRF with `max` ≤ 0 never returns (`C126_prf_empty_fails`) |
| C127 | all that a requester sends (two commitments, the request, its proof) as a function of all its draws (`requesterSends`, `requesterDraws`); a specification that makes the same things from public values only (`simView`); distance between distributions is `Close`, the rational statistical distance (Lemmas/Close.lean) | five steps, each a bijection or a near-bijection on the draws: simulate the proof (C100), drop the refused encryption randomness, replace commitments by random powers of h, absorb what the homomorphic operations leave in the ciphertext randomness, replace the blinded values by random ones (C102); `C127_safe` bounds all terms for safe primes |
| C128 | `publicKeyOf` makes a public key as `GenerateKeys` does but with two numbers chosen by the signer; `generateRequest` and `decryptRequest` are the modelled functions; `readPair` is the signer's reading of one decrypted value | the decrypted value is `m a + b q + k a + y r a` over the integers (no reduction, as it stays below `N^s`); its digits in the mixed basis `1, k, y` are separated by the sizes of `k` and `y` |
| C129 | a game in which a forger asks adaptively for signatures with random nonces (`signed`, `Forges`, `forgeProb`), the strong Diffie-Hellman problem (`sdhProb`), two explicit algorithms (`newValue`, `oldValue`) that play the signer with `k` or `y` unknown | the draws of the game are mapped injectively to the draws of the problem (nonces to the values drawn in advance, generator to `P`), so that each forgery becomes a solution; polynomial division in the exponent |
| C130 | the game of opening a commitment twice with parameters from `generateParameters` (`OpensTwice`, `bindProb`), an explicit factoring algorithm (`factorAlg`, `factorProb`), a party that knows the factors (`knows`) | exponents below n/4 are close to exponents below (p-1)(q-1)/4, those are residues of longer ones, of which the adversary sees only the residues; so the two openings give a non-zero multiple of (p-1)(q-1)/4, and half of the units turn it into a factor |
| C131 | provers that output a public key, a commitment and two lists of evaluations with proofs (`TwoOut`, `Cheats`, `cheatProb`), two accepted proofs per list (`Proved`, `Equivocates`, `equivProb`), explicit algorithms between them (`rewound`, `toBreaker`) | forking twice: a run that succeeds is run again from the hash of either proof on; wins whose second runs win rarely are rare (induction on the prover). Two proofs per list give the product of key and commitment as a power of h in two ways, hence two openings of one commitment that differ where the evaluations differ, hence a factor by C130 |
| C132 | whole runs with draws (`run`, `runWith`: base, key pair with proof, evaluations, proof), what is published (`View`), spies that see it and the hash function (`VSpy`, `realVrf`), a simulator that has no key (`simulate`, `simSpy`), the games of C122 | the proofs are replaced by simulated ones with a programmed hash function (a resampling lemma for random functions, C91 for the masks), the public key by a power of `h` (every generator is one, C130), which leaves exactly the real game of C122 |
| C133 | the signer's answer with all its draws (`answerDraws`, `answerOf`), a simulated answer made of the signatures (`blinded`, `simAnswer`) | the points of an answer to an honest request are the signatures divided by the blinding factors (C60); C101 for the proof at each opening, then the commitment as a random power of `h`; with SHA-512 as a random function by resampling its value at the one string that is hashed (`C133_rom`) |
| C134 | a session: generator, encryption key and signing keys made by the library, a requester (`Requester`) that chooses messages and its own draws, the answer, a forgery | C133 replaces the answer by one made of signatures, then C121 replaces the encrypted keys by zeros, then the requester is a forger in the sense of C129 |
| C135 | `SplitCsvLine` on memory (`CsvBuffer.splitCsvLineC`): the copied buffer, pointers as indices, unescaping in place, `strlen`, `strchr`, `std::isspace` on signed or unsigned `char` | reads and writes outside the buffer are undefined in the model; invariant of the loop: the columns found so far are C strings below `line`, the rest of the line is untouched, `end <= line`; equality with the string function of C35 |
| C136 | the Python generator of C115 (`Prng.init`, `getRand`) when SHA-512 is a random function on a finite set that has the inputs of the generator | the stream is a string of independent uniform bytes (`prob_stream`: the inputs of C115 are distinct); counting by recursion on the first chunk (`mass_cons`) gives equal probabilities (`C136_uniform`), bounds `(1 - 2^-k)^n / product` and `1 / product` (`C136_near_uniform`), and independence across seeds (`C136_seeds`) |
| C137 | `Ctx.randomOracle` with any hash of `L` bytes that is a random function on a finite set that has the blocks, and `Ctx.prf` with a random HMAC | the blocks of different strings are different inputs (C30), so the blocks are independent (`prob_points`, `prob_pi`); counting the numbers of `w` bits with a given remainder from both sides gives the factor `1 ± 2^-len` per string; the PRF by a permutation of the digests that exchanges two accepted values and keeps all rejected ones (`prf_swap`), so exactly uniform |
| C138 | `Curve.hashToCurve` on distinct strings, with a hash that is a random function on a finite set that has the strings and the possible rejected values | the strings at which the loops end are a function of the rejected answers only (`term_congr`), so given where they end the accepted answers are independent (`prob_ends`), an exact product; the loops end at different strings but for the probability that one meets another (`meet_bound`) or is not done (C126); accepted answers are close to uniform by C137's count; Bernoulli for the numbers |
| C139 | whole runs of client and server over P-224, P-256 and P-384 (`Curve.toEcGroup`), with SHA-256 a random function; hashing to the curve is the loop of the code | points with an even y-coordinate are one of each pair of opposite points, so C138 becomes closeness to the hash values of C104 (`prob_hashes`, `transfer`); the messages are a function of the hash values (`clientRun_eq`, `viewRun_eq`) unless a hash is missing or two agree (`real_close`); then C106 and C107 |
| C140 | as C139, with questions that also evaluate SHA-256 itself | the loops of `HashUniform` together with the whole table are close to independent points and a table changed where the loops end (`program_close`, by `weights` for each set of end points); the reductions draw the table and are averages over it (`mixed_adv`, `mixedDcr_adv`), so C106 and C107 are used with the advantages in place of bounds (`two_clients_exact`, `two_servers_exact`); `changed_hash`: the changed table has the wanted hash values |
| C141 | the memory behind `BigNum` objects: OpenSSL numbers at addresses, `std::unique_ptr` owners, copy, move, assignment, the temporaries of `Div`, `ModNegate` and `RecoverXFromPaddedPoint`; any allocation may fail | invariant: owners are injective and point to numbers that are there; a statement on pointers simulates the statement on integers (`exec_made`, `rebind`, `step_right`), induction over the program; failing copies and the leak for the point at infinity by witness |
| C142 | `Open` without a key function and the two default keys, on the merging reader of C42 | the key of a string is the string, and the order of `std::string` is the lexicographic order of bytes (`upTo_iff`); the key of an integer reader is constant, so only completeness follows; a witness for the order |
| C143 | the memory behind `MontBigNum` objects, on the memory of C141: copy, move, assignment, in-place multiplication (also of a number with itself), reading from bytes in another context, the check of the contexts; any allocation may fail | simulation of each statement by the statement on residues (`step_follows`), the number in memory being the Montgomery form of the residue; induction over the program; failing copies and the lost number of `BN_bin2bn` by witness |
| C144 | the memory behind `ECPoint` objects: library points at addresses that know their curve, `std::unique_ptr` owners, the results of `Mul`, `Add`, `Clone`, `Inverse`, the temporary of the constructor, error paths; any allocation may fail | simulation of each statement by the statement on group elements (`step_follows`), induction over the program; the failing `Clone` by witness |

## 3. Trusted base

**Checked by the kernel.** Every theorem is accepted by the Lean 4.33.0 kernel. The only axioms
any of them depends on are `propext`, `Classical.choice` and `Quot.sound` (checked with
`#print axioms` for every theorem named in MANIFEST.json). There is no `sorry`, no `admit`, no
added axiom, no `native_decide`, no `bv_decide`, no `implemented_by`. `decide` and
`decide +kernel` are used for witnesses and examples, and to check the certificates behind C111
(primality, the order of the base point, the cubic without root).

**What has to be believed.**

1. That the definitions in `lean/Verif/Model` transcribe the C++. Every definition cites the file
   and lines it models and says where it simplifies.
2. The behaviour of external code, which appears as a parameter or as a hypothesis:
   * OpenSSL/BoringSSL big numbers: exact integer arithmetic, `BN_nnmod`, `BN_mod_inverse` fails
     exactly on non-units, `BN_div` truncates, `BN_get_u64` ignores the sign (Model/BigNum.lean).
     `BN_to_montgomery` fails for a negative number, as BoringSSL's does (Model/Exp.lean).
     The code never passes a negative modulus to the library; what the model gives for one is not
     claimed of the library.
     Miller-Rabin is exact primality. Memory never runs out, except in Model/BnObject.lean,
     Model/MontObject.lean and Model/PointObject.lean.
   * Hash functions and HMAC: arbitrary functions (`Hashes`) with fixed output length. No theorem
     assumes collision resistance; where collisions matter (C01, C02, C20) their absence among the
     inputs of the run is an explicit hypothesis.
   * In C104, C105 and the theorems built on them the hash to the curve is a random oracle: the
     SHA-256 hash of a curve is replaced by a table with a uniform nonzero point for each of
     finitely many identifiers (up to the sign convention), and keys are uniform. Nothing is assumed
     about the Diffie-Hellman problem: its advantage occurs in the conclusion, for algorithms
     that are written out. The same holds for the composite residuosity problem in C106. C107 is built on C104. That
     these algorithms are efficient can be seen, but is not stated.
   * Random numbers: every draw is an argument, and theorems quantify over all draws.
   * `BN_mod_sqrt`: any function that returns some root of a square (`SqrtOk`).
   * Java and Python (C109, C110, C112): `BigInteger` and Python's `int` are integers;
     BouncyCastle's square root returns some root or null (`BcSqrt`), its point decoding is written
     down in Model/JavaCipher.lean; the library that Python's ctypes loads is a parameter (`Py.Lib`).
     C112 assumes that both multiply points by Mathlib's group law and that the latter decodes points as
     BoringSSL or as OpenSSL does (`World.Ok`).
   * Elliptic curves: the points are a commutative group with `EC_POINT_*` the group operations.
     What is assumed of it is `EcGroup.Lawful` (prime order, injective encoding of all points but
     infinity). `toEcGroup_lawful` proves these laws for every nonsingular Weierstrass curve over a
     prime field with a prime number of points, with SEC1 encoding as BoringSSL does it, using
     Mathlib's group law; C111 proves it of P-224, P-256 and P-384, so that `C01_p256` assumes nothing
     of the group.
     The point at infinity cannot be encoded (BoringSSL fails; OpenSSL writes one zero byte).
   * BoringSSL's four `EC_..._to_curve_..._sswu` functions compute what RFC 9380 says (C114's
     `Implements`, for non-empty tags); elsewhere the SSWU hash is an arbitrary function.
   * Montgomery multiplication: exact, for an arbitrary radix.
   * protobuf: messages are modelled field by field as values; serialization is the standard wire
     format (Model/Wire.lean, Model/WireParse.lean: varints and length-delimited fields; fixed-width
     fields, unknown to every message here, are skipped; groups and overlong tags or sizes count as
     failure). After a failed parse the object
     holds arbitrary content (`junkMsg`), and after a failed varint read the variable holds an
     arbitrary value (`junk`).
   * stdio/files: a file system is a map from names to contents. `fopen`, `fwrite`, `fclose`,
     `fgets`, `remove` either do what they should or fail, at arbitrary points (`Faults`); a failing
     `fwrite` or `fclose` may leave any prefix of the data. Directories occur in C99 only, as a tree
     without links; permissions and several processes are not modelled. `std::ofstream`/`std::getline` in data_util.cc likewise.
   * `std::sort`, `std::priority_queue`, `std::shuffle`: any sorted permutation / any minimal element
     / any permutation.
   * Threads: in `ProcessRecordFile` they share the sharding writer, whose methods hold a mutex
     from beginning to end; a schedule is an interleaving of whole calls. In the server program
     (C96, C97) a schedule is an interleaving of single accesses to shared memory, sequentially
     consistent; gRPC may run any number of `Handle` calls at once.
   * gRPC: a remote call returns an arbitrary status and an arbitrary message (C66); for C85, it
     carries the serialized message if that has at most `limit` bytes (4 194 304 by default for
     received messages) and fails otherwise, or if the bytes do not parse.
3. Integer widths: `int`, `int32_t`, `int64_t`, `uint64_t`, `size_t` overflow is modelled where it
   can be reached with arguments the API accepts (shifts by `int`, record lengths, the sum of the
   dummy data, `double` rounding in the point padding); elsewhere sizes are unbounded naturals and the
   citation comment says so.
4. Loops without a bound in the C++ (hashing to the curve, PRF, rejection sampling) take fuel and
   return `none` when it runs out; theorems are about runs that return.

## 4. What is modelled

Modelled (all functions with semantic content): big_num.cc, context.cc, openssl_init.cc, mont_mul.cc,
fixed_base_exp.cc, simultaneous_fixed_bases_exp.cc, two_modulus_crt.cc, paillier.cc,
camenisch_shoup.cc, pedersen_over_zn.cc, ec_group.cc, ec_point.cc, ec_point_util.cc,
ec_commutative_cipher.cc, elgamal.cc, commutative_elgamal.cc, shanks_discrete_log.cc,
dy_verifiable_random_function.cc, bb_oblivious_signature.cc, proto/proto_util.cc, client_impl.cc,
server_impl.cc, private_join_and_compute_rpc_impl.cc, client.cc (`ExecuteProtocol`), server.cc,
data_util.cc, generate_dummy_data.cc, file.cc, file_posix.cc, recordio.cc,
process_record_file_util.h, proto_util.h, ec_key_util.cc, elgamal_key_util.cc,
elgamal_proto_util.cc. Java: EcCommutativeCipher, EcCommutativeCipherBase. Python: ec_cipher.py,
elliptic_curve.py, converters.py, supported_hashes.py, `RandomOracle`, `PRNG`, `BigNum`, `BigNumCache`, `TempBNs`, `OpenSSLHelper`, `ModExp`, `ModInverse` and `GetRandomInRange` of ssl_util.py, with the primality tests.

Not modelled: construction and destruction of the static lock table of openssl_init.cc, status_macros.h and
status_matchers.h (their meaning is built into `Res`), flag parsing and log output,
`GenerateSafePrime`/`GeneratePrime` (one OpenSSL call; a parameter that returns safe primes), timing, memory consumption, and cryptographic hardness:
statements of the form "no efficient adversary" are not expressible here. Hiding is proved instead as
reductions to explicit algorithms (C104-C107, C113, C121, C122, C129-C132, C134, C139, C140). Soundness is proved as special
soundness (extraction from two accepting runs), and also against provers that
ask a bounded number of hashes (C123-C125). SHA-512 is a random function in C123 to C125, C131 to C134 and C136, the three SHA-2 functions and HMAC in C126 and C137, the three SHA-2 functions in C138, and SHA-256 in C139 and C140; elsewhere the hash
is a parameter.

## 5. Findings: where the code does not do what a user would expect

Each of these is a theorem.

| property | finding |
|----|----|
| C06 | The client answers a replayed server-round-one message again although its documentation promises INVALID_ARGUMENT. |
| C07 | When sending the reply fails, the server still counts the protocol as finished. |
| C09 | A zero or even Paillier modulus sent by the client aborts the server; a sum that is not a unit aborts the client. |
| C10 | A protocol server that returns OK without sending makes the RPC return OK with an empty message. |
| C13 | Decrypting a non-unit aborts instead of failing. |
| C17, C49 | Negative exponents are used by magnitude; 31 or more bases per group shift an `int` too far. |
| C21 | A key derived from a seed can be 0. |
| C28 | Padding accepts a message whose last candidate is the field prime itself; it is then recovered as 0. |
| C33 | `ModNegate` of a nonzero multiple of m is m. |
| C34 | Accepted sizes above 30 search bits shift an `int` too far. |
| C35, C36 | NUL bytes are lost in CSV fields; newlines in identifiers break dataset files. |
| C29 | `CreateECPoint(x, y)` aborts for coordinates off the curve although documented to return INVALID_ARGUMENT. |
| C38 | `max_associated_value = 0` aborts although documented as allowed. |
| C40 | The result of reading a record length is not checked. |
| C41 | Trailing carriage returns, NUL bytes and long lines are changed by the line reader. |
| C43 | After one failed `Open` a merging reader is unusable for ever. |
| C45 | A failing close of a shard is forgotten; records can be lost with `Close` reporting success. |
| C47 | Chunk size 0 never ends, 0 threads is undefined, an input named like a shard is overwritten. |
| C50 | Multiplying a Pedersen commitment by a negative number aborts. |
| C52 | The verifier for trusted moduli does not check that g is a square; only g^2 is then a power of h. |
| C53 | Size 0 divides by zero; a piece starting at 2^31 or later overflows an `int`. |
| C56, C63 | Ciphertexts with too few components and proofs with too few openings are accepted by the parser and lead to out-of-range reads. |
| C58 | More messages than generators read out of range. |
| C61 | An honest request is refused when a masked exponent is not prime to the modulus. |
| C64, C77 | Parse failures of key files are ignored: an empty or damaged file is a private key 0; equal file names lose the public key; shares with different generators abort. |
| C68 | Request and response proofs are hashed with the same label. |
| C72 | The transcript of the Pedersen parameter proof is ambiguous. |
| C125 | pedersen_over_zn.cc 185-191 hashes the first messages of all repetitions one after the other without lengths, so a prover can hash one string, look at the challenge and only then cut the string into first messages. pedersen_over_zn.h 283-287 promises soundness error 2^(-num_repetitions) for untrusted moduli; there are parameters (a safe modulus, h generating the squares, g not a power of h) for which a prover with one hash is always believed, for every hash function and any number of repetitions from 2 on. The numbers of repetitions and challenge bits are also taken from the proof: neither verifier asks for a minimum. |
| C126 | context.cc 144-167 `PRF` calls itself until the value is below `max`. For `max` zero or negative no value is, and nothing checks it: the call never returns (in C++ it uses up the stack), for every key of at least 80 bits and every data (`C126_prf_empty_fails`). paillier.cc 205-207: if the library has a single safe prime of the requested length, `GeneratePaillierKeyPair` draws for ever (`C126_keygen` with m = 1) |
| C76 | Signing an unverified request can be undefined behaviour. |
| C79 | `GeneratePaillierKeyPair` loops for ever for a length with one safe prime only (it draws until the two differ); a negative `s` in a key proto is undefined. |
| C80 | `FromProto` aborts on an even modulus and when the numbers of exponents in the two keys differ. |
| C81 | `ToIntValue` drops the sign; `IsSafePrime(2)` aborts. |
| C83 | `generate_dummy_data` prints the client's size as the server's. |
| C85 | Neither program raises gRPC's limit of 4 MB per message and each round is a single message, so with P-256 no run with more than 113 359 client identifiers can succeed: the client exits with 1. |
| C94 | `Create` checks room for twice the range of the masked exponents; the soundness argument needs three times (hypothesis `hroom`). |
| C95 | VerifyRequest bounds the masked messages, a, b, alpha and gamma but not the masked nonces; `ReqAccepted` therefore has no range for them. |
| C96 | server.cc 76-78 waits for the end of the protocol by reading a plain `bool` that a gRPC thread writes: every completed run has this data race, undefined behaviour in C++. |
| C97 | private_join_and_compute_rpc_impl.cc calls the one server object from all gRPC threads without a lock: two simultaneous start requests let one call use a cipher the other has deleted; two simultaneous round-one messages are both answered, so a client can ask twice. |
| C92 | When `fclose` fails the file object keeps the closed stream, and its destructor closes it again: undefined behaviour. |
| C98 | recordio.cc 344 passes `line.data()` where a string view is expected, so that the line is searched for a NUL beyond its end: undefined behaviour for a view into a buffer without one. |
| C98 | file_posix.cc passes `data()` of string views to `fopen`, `rename` and `remove`: for a view into a longer string the file with the longer name is opened, renamed or deleted; a name with a NUL in it is cut there. |
| C99 | `RecursivelyCreateDir` returns ALREADY_EXISTS for a directory that exists; the comment in file.h expects OK. |
| C101 | bb_oblivious_signature.cc masks the opening of the commitment to the decrypted values with a number below N 2^t, but draws the opening below the Pedersen modulus n. If n is much larger than N, the response proof reveals the leading bits of the opening: no simulator is near both experiments. |
| C103 | server_impl.cc masks the encrypted sum with an encryption of zero under the public key, whose generator -x^2 mod n has Jacobi symbol 1, while the client's ciphertexts (made with the private key) have symbols 1 and -1. The Jacobi symbol of the answer is therefore the product of the symbols of the ciphertexts in the intersection: one bit about which identifiers are common, beyond size and sum. It can be read by anybody who sees the traffic. |
| C105 | client_impl.cc sends the client's own set in the order of its input. The server, which finds the common elements among the re-encrypted ones, so learns at which positions of the client's list the common identifiers are, not only how many there are (C105_positions_known). |
| C108 | recordio.cc takes a five-byte length modulo 2^32: a damaged length of 2^32 + 1 is read as 1 and what follows is misread without an error. |
| C109 | The number conversions differ at zero: the C++ writes the empty string, Python a zero byte, and the Java method meant to be compatible with the C++ fails with ArrayIndexOutOfBoundsException. The oracles' limits differ: the C++ aborts from 130048 bits on, Python raises from 256 digests on, Java has none. |
| C110 | As a consequence, on a curve without a point at x-coordinate zero (among them secp224r1, the default curve of the Python cipher) a string whose hash is zero is encrypted differently by the C++ and Python and makes Java throw. |
| C112 | The Java cipher refuses the private key 1 although its own `createWithNewKey` can return it (and the C++ and Python take it): an exported key may not be importable. |
| C112 | An empty ciphertext makes the Java `reEncrypt`, `decrypt` and even `validateCiphertext` throw ArrayIndexOutOfBoundsException; hybrid encodings are accepted by Java and by Python over OpenSSL and refused by the C++. |
| C112 | The Python cipher treats empty key bytes as a missing key and silently generates a random one; over OpenSSL it takes keys above the order. A malformed ciphertext raises AssertionError, not ValueError. `EncryptPoint` multiplies the caller's point object in place: a second call on it returns a double encryption. |
| C112 | A Java cipher made without a hash type uses SHA-256, a Python cipher SHA-512 (`C112_defaults`): ciphertexts of two ciphers with the same key and curve made with the defaults do not match. |
| C113 | `GeneratePublicKeyFromShares` takes shares without a proof that their makers know the private parts. Who publishes their share last can make the joint key one they alone can decrypt for (`C113_rogue_share_fails`); the threshold guarantee needs shares that are committed to first. |
| C114 | `CreateWithNewKey` and `CreateFromKey` accept the SSWU hash type on curves that have no such hash (P-224, P-521); the cipher is made, and every `Encrypt` and `HashToTheCurve` then fails with InvalidArgument (`C114_unsupported_curve`). `GetPointByHashingToCurveSswuRo`, unlike the SHA hashes, does not exclude the point at infinity; a string hashed to it makes `Encrypt` fail with Internal (`C114_cipher`, `C114_always_encrypts_fails`), with negligible probability for a good hash. |
| C115 | `PRNG.GetRand` of zero or a negative number computes the hash of every remaining counter value (2^32 by default) before it raises AssertionError (`C115_not_positive`). |
| C116 | Python: `<<=` and `>>=` do not look at `immutable`; `x = BigNum.One(); x <<= 3` makes the shared constant `One()` 8, and `AddOne` adds 8 from then on (`C116_immutable_fails`). Negative results exist (`1 - 2`) but `GetAsLong`, `GetAsBytes` and `str` drop the sign (`C116_sign_fails`). `ModNegate` of a multiple of the modulus is the modulus, not 0 (`C116_modNegate_zero_fails`). `x / 3` with an int is `None`, while `x + 3` is a TypeError and `x == 3` a ValueError; failures of the library (division by zero, empty ranges) are AssertionErrors. `/=` of Python 3 is not the in-place method that the class defines (`__idiv__`). Shift counts are cut to 32 bits (`C116_shift_wraps_fails`). A second `BigNumCache` empties the first (`C116_cache_shared_fails`). |
| C117 | Python: `ModExp(2, -1, 7)` raises ValueError after three numbers have been allocated and never frees them (`C117_leak_fails`): `__exit__` does not run when `__init__` raises. `OpenSSLHelper()` returns the one instance, but Python runs `__init__` again and allocates a new context each time (`C117_context_leak_fails`). `TempBNs(x=b'...')` is documented; under Python 3 the bytes are ignored and the number is 0 (`C117_bytes_fails`). A `str` is read as the memory of wide characters (`C117_str_fails`). |
| C118 | Python: `point * 5` with a plain number passes 5 to the library as the address of a number (undefined behaviour) instead of a TypeError (`C118_plain_number_fails`). |
| C119 | Python: `IsPrime` takes the library's error result -1 for "prime" (`C119_error_fails`); `BigNum(2).IsSafePrime()` raises ValueError instead of answering (`C119_two_fails`). |
| C119 | Python: `BigNum.__hash__` hashes the address and the `immutable` flag, not the number: equal numbers are different keys of a set or dict (`C119_set_equal_fails`), and after `x.Mutable()` the object is not found in a set that contains it (`C119_set_mutable_fails`). |
| C120 | `Context::Context()` uses the library (`BN_CTX_new`, `EVP_MD_CTX_create`, `CreateBigNum`) before it calls `OpenSSLInit()`: with an OpenSSL whose functions take locks, two threads that make their first contexts at the same time can both be inside a lock, or unlock a mutex they never locked (`C120_context_fails`). A call of `OpenSSLInit()` before the threads start is enough (`C120_early`). |
| C120 | The lock callback checks that the lock number is not negative but not that it is in the table (`C120_range_fails`). |
| C121 | `EncryptWithRand` refuses negative randomness and randomness that shares a factor with `n`, but accepts 0: the ciphertext is then `(1, (1+n)^m_i)`, readable by everybody (`C121_zero_fails`). |
| C122 | `Apply` takes messages of any size and reduces them modulo the group order silently: messages `m` and `m + order` have the same value (`C122_range_fails`). |
| C128 | `GenerateRequestAndProof` does not check the signer's public key (two encrypted numbers without a proof of their size). A signer who encrypts large numbers reads messages and nonces off an honest request (`C128_key_reveals`); `VerifyResponse` would refuse the answer (bb_oblivious_signature.cc 1354-1369), but the request has been sent by then. |
| C135 | `SplitCsvLine` hands `char`s to `std::isspace`. Where `char` is signed, a column without quotes that begins or ends with a byte from 128 to 254 (any accented letter in UTF-8) is undefined behaviour (`C135_signed_fails`); columns in quotes are safe. |
| C141 | The copy constructor of `BigNum` does not check `BN_dup`, as copy assignment and the other constructors do: without memory, the copy has no number, and `Neg`, `GetLastNBits` or any later use of it is undefined behaviour instead of the end of the process (`C141_fails`, `C141_neg_fails`). |
| C141 | `ECPoint::GetAffineCoordinates` does not free its two numbers when it fails: every `RecoverXFromPaddedPoint` of the point at infinity leaves two numbers that nothing can free (`C141_leak_fails`). |
| C142 | `MultiSortedReader<int64_t>` opened without a key function compares nothing (its default key is 0): the records do not come in ascending order, although the class says so; the order is that of the file list and the priority queue (`C142_int_fails`). |
| C143 | The copy constructor and the copy assignment of `MontBigNum` do not check `BN_dup`: without memory the copy has no number and its next use is undefined (`C143_fails`). The constructor from bytes does not check `BN_new`: `BN_bin2bn` then makes a number of its own, which is lost, and the object has none (`C143_reload_fails`). |
| C144 | The constructor of `ECPoint` does not check `EC_POINT_new`: without memory `Clone`, `Add`, `Mul` and `Inverse` are undefined, although they promise an INTERNAL error and `CreateECPoint` returns one (`C144_fails`). |
| C16 | With `--two_k_ary_exp`, making an exponentiation object for a negative base, an even modulus or a base not below the modulus ends the process (`C16_fixed_base_exp_create`, `C67_montgomery_refuses`); the plain implementation accepts all of them. |

## 6. Testing the theorems

Wrong programs are tried against the theorems in a scratch copy: a generator edits one operator,
constant, argument order, branch or status code of a model definition at a time, and the library is
rebuilt. `seeded/LOG.jsonl` has one line per attempt. An edit that survives is either shown to be
harmless (the note says why) or a theorem is tightened until it fails.
