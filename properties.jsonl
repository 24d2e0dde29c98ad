{"id": "C01", "title": "Private intersection-sum is correct end to end", "statement": "If an honest client (distinct identifiers with nonnegative values) and an honest server (identifiers) run the whole protocol, then the client obtains exactly the number of its identifiers the server also has and exactly the sum of its values on them, provided that sum is below N^2 where N is the client's Paillier modulus, the identifiers do not collide under the hash to the curve, and the search for a Paillier generator below 1002 succeeds.", "quantifier": "all client and server input lists of any length, all EC keys, all Paillier primes p != q > 2, all encryption randomness, all orders std::sort may give equal elements", "why_tests_cant": "tests run the protocol on a few small sets with one random key each; the claim is for every input, key and random choice", "anchors": ["private_join_and_compute/client_impl.cc: ReEncryptSet, DecryptSum, Handle", "private_join_and_compute/server_impl.cc: EncryptSet, ComputeIntersection, Handle"]}
{"id": "C02", "title": "Duplicates are counted with multiset-minimum semantics", "statement": "With repeated identifiers the reported intersection size is the sum over identifiers of min(occurrences at the client, occurrences at the server), and the reported sum adds exactly that many of the client's values for each identifier, whichever of the equal elements the sort puts first.", "quantifier": "all client and server lists with arbitrary repetitions, all keys and randomness, all permutations an unstable sort may choose", "why_tests_cant": "unit tests use duplicate-free sets and one sort implementation", "anchors": ["private_join_and_compute/server_impl.cc: ComputeIntersection"]}
{"id": "C03", "title": "The client's reply does not reveal the order of the server's list", "statement": "The re-encrypted server set in the client's round-one message depends only on the multiset of elements received, not on their order.", "quantifier": "all server round-one messages and all permutations of their elements, all client keys", "why_tests_cant": "requires all permutations of all inputs", "anchors": ["private_join_and_compute/client_impl.cc: ReEncryptSet"]}
{"id": "C04", "title": "Server life cycle", "statement": "Over any sequence of calls to the server's Handle, it emits at most one server-round-one message and at most one server-round-two message, round two only after round one, reports finished exactly from the successful intersection computation on, never leaves the finished state, and after finishing every further message is refused with INVALID_ARGUMENT and nothing is sent.", "quantifier": "all finite histories of arbitrary (also malformed) messages and all outcomes of the message sink (round two after round one: for curves whose hash to the curve does not fail)", "why_tests_cant": "the claim ranges over unbounded call histories", "anchors": ["private_join_and_compute/server_impl.cc: Handle, EncryptSet, ComputeIntersection", "private_join_and_compute/protocol_server.h"]}
{"id": "C05", "title": "Client life cycle", "statement": "Over any sequence of calls, the client never reports finished before it has accepted a server-round-two message following a server-round-one message, never leaves the finished state, refuses every message after finishing, and PrintOutput succeeds only when finished; the printed size and sum are those of the accepted round-two message.", "quantifier": "all finite histories of Handle / StartProtocol / PrintOutput calls with arbitrary messages", "why_tests_cant": "the claim ranges over unbounded call histories", "anchors": ["private_join_and_compute/client_impl.cc: Handle, DecryptSum, PrintOutput", "private_join_and_compute/protocol_client.h"]}
{"id": "C06", "title": "The client accepts only the round it expects", "statement": "Documented: Handle fails with INVALID_ARGUMENT if the message is not of the expected round. A second server-round-one message should therefore be refused.", "quantifier": "all message histories", "why_tests_cant": "needs histories no test replays", "anchors": ["private_join_and_compute/client_impl.cc: Handle", "private_join_and_compute/protocol_client.h"]}
{"id": "C07", "title": "A failed server request changes nothing observable", "statement": "If computing the answer to a client-round-one message fails, the server has sent nothing, is not finished and is unchanged, so that a later well-formed client-round-one message gives the same answer it would have given without the failed request. (If the answer was computed but the sink fails, the server counts as finished.)", "quantifier": "all histories containing any number of failing client-round-one messages", "why_tests_cant": "needs all interleavings of failing and succeeding requests", "anchors": ["private_join_and_compute/server_impl.cc: ComputeIntersection, Handle"]}
{"id": "C08", "title": "Malformed curve points are refused", "statement": "If any element of the encrypted set of a client-round-one message, or any element of a server-round-one message, is not the encoding of a non-identity point of the curve, the receiving party sends no reply message and does not report success; a malformed element of the re-encrypted set never counts towards the intersection.", "quantifier": "all messages with at least one element that is not a valid encoding, at any position", "why_tests_cant": "invalid encodings are an unbounded set and position matters", "anchors": ["private_join_and_compute/server_impl.cc: ComputeIntersection", "private_join_and_compute/client_impl.cc: ReEncryptSet", "private_join_and_compute/crypto/ec_commutative_cipher.cc: ReEncrypt", "private_join_and_compute/crypto/ec_group.cc: CreateECPoint"]}
{"id": "C09", "title": "Handle answers every message with a status instead of crashing", "statement": "For every message a peer can send, the server's and the client's Handle return a status; they do not abort the process.", "quantifier": "all messages of all rounds, including hostile field values", "why_tests_cant": "a fuzzer samples; hostile values are special number-theoretic points", "anchors": ["private_join_and_compute/server_impl.cc: ComputeIntersection", "private_join_and_compute/client_impl.cc: DecryptSum", "private_join_and_compute/crypto/paillier.cc: GetPrecomp, LFunc", "private_join_and_compute/crypto/big_num.cc: Div"]}
{"id": "C10", "title": "RPC adapter delivers exactly one reply", "statement": "A call to the RPC service answers with the first message the wrapped protocol server sends (every further send is refused), and preserves the status code for OK, INVALID_ARGUMENT and INTERNAL and turns every other error into UNKNOWN. With this project's protocol server it returns OK exactly if exactly one message was sent.", "quantifier": "all protocol servers (as interaction trees), all messages and server states", "why_tests_cant": "ranges over every behaviour of the wrapped server", "anchors": ["private_join_and_compute/private_join_and_compute_rpc_impl.cc: Handle, SingleMessageSink, ConvertStatus"]}
{"id": "C11", "title": "Paillier (Damgard-Jurik) decryption inverts encryption", "statement": "For every s >= 1, distinct primes p, q > s with n = pq and every message m in [0, n^s), decrypting an encryption of m made by the public-key object or by the private-key object returns m.", "quantifier": "all s, all primes, all messages, all encryption randomness", "why_tests_cant": "tests use fixed small primes and s in {1,2}", "anchors": ["private_join_and_compute/crypto/paillier.cc: PublicPaillier::Encrypt, PrivatePaillier::Encrypt, PrivatePaillier::Decrypt, PrimeCrypto"]}
{"id": "C12", "title": "Paillier homomorphisms", "statement": "Decrypting Add(c1,c2) gives the sum of the plaintexts mod n^s, Multiply(c,k) gives k times the plaintext mod n^s, LeftShift(c,b) gives plaintext times 2^b mod n^s, and this extends to any finite combination of them.", "quantifier": "all ciphertexts built from encryptions by any finite sequence of homomorphic operations", "why_tests_cant": "unbounded expression depth and all key sizes", "anchors": ["private_join_and_compute/crypto/paillier.cc: PublicPaillier::Add, Multiply, LeftShift"]}
{"id": "C13", "title": "Paillier argument validation", "statement": "Encrypt refuses exactly the messages outside [0, n^s) and Decrypt refuses exactly the ciphertexts outside [0, n^(s+1)), with INVALID_ARGUMENT.", "quantifier": "all integers", "why_tests_cant": "boundary behaviour for every modulus", "anchors": ["private_join_and_compute/crypto/paillier.cc: PublicPaillier::Encrypt, PrivatePaillier::Encrypt, PrivatePaillier::Decrypt"]}
{"id": "C14", "title": "Private-key encryption with randomness is reproducible with the public key", "statement": "The pair (ciphertext, randomness) returned by the private-key object's EncryptAndGetRand satisfies: the public-key object's EncryptWithRand on the same message with that randomness returns the same ciphertext.", "quantifier": "all messages, primes, s and internal random draws", "why_tests_cant": "CRT recombination must agree for all residues", "anchors": ["private_join_and_compute/crypto/paillier.cc: PrivatePaillierWithRand::EncryptAndGetRand, PublicPaillier::EncryptWithRand"]}
{"id": "C15", "title": "Two-modulus CRT", "statement": "For coprime moduli m1, m2 Compute(a,b) is the unique value in [0, m1*m2) congruent to a mod m1 and to b mod m2.", "quantifier": "all coprime moduli and all residues", "why_tests_cant": "unbounded arithmetic", "anchors": ["private_join_and_compute/crypto/two_modulus_crt.cc: TwoModulusCrt"]}
{"id": "C16", "title": "Fixed-base exponentiation equals modular exponentiation", "statement": "FixedBaseExp::ModExp(e) equals base^e mod m for every exponent e >= 0 under both the plain and the 2^k-ary table implementation, and refuses negative exponents. The plain implementation can always be made; the table implementation exactly for an odd modulus above 1 and a base from 0 to below the modulus, otherwise the process ends.", "quantifier": "all bases, exponents, moduli", "why_tests_cant": "window edges for every exponent length", "anchors": ["private_join_and_compute/crypto/fixed_base_exp.cc: TwoKAryFixedBaseExpImplBase, SimpleBaseExpImpl, ModExp"]}
{"id": "C17", "title": "Simultaneous exponentiation equals the product of powers", "statement": "SimultaneousExp(e1..ek) equals the product of base_i^{e_i} for every grouping size the object was created with, and refuses a wrong number of exponents. Create refuses size 0 and sizes above the number of bases; with 31 or more bases in a group its behaviour is undefined.", "quantifier": "all base lists, all lists of nonnegative exponents, all num_simultaneous from 1 to the number of bases, below 31", "why_tests_cant": "table layout must be right for every batch remainder", "anchors": ["private_join_and_compute/crypto/simultaneous_fixed_bases_exp.cc: Create, Precompute, SimultaneousExp"]}
{"id": "C18", "title": "Commutative cipher commutes", "statement": "For any two keys K1, K2 and any input a, K1.ReEncrypt(K2.Encrypt(a)) = K2.ReEncrypt(K1.Encrypt(a)), as byte strings.", "quantifier": "all keys in (0, order), all plaintext strings", "why_tests_cant": "all keys and strings", "anchors": ["private_join_and_compute/crypto/ec_commutative_cipher.cc: Encrypt, ReEncrypt"]}
{"id": "C19", "title": "Commutative cipher decryption removes one layer", "statement": "Decrypt(ReEncrypt(c)) = c for every valid point encoding, Decrypt(Encrypt(a)) = HashToTheCurve(a), and decrypting a doubly encrypted value leaves it encrypted under the other key.", "quantifier": "all keys, all valid encodings, all strings", "why_tests_cant": "needs the group-theoretic fact for every key", "anchors": ["private_join_and_compute/crypto/ec_commutative_cipher.cc: Decrypt, InvertPrivateScalar"]}
{"id": "C20", "title": "Encryption preserves equality and inequality", "statement": "Two strings have equal encryptions under a key exactly when they hash to the same point, and two double encryptions are equal exactly when the hashes are equal; so intersection on ciphertexts is intersection on hashes.", "quantifier": "all keys and pairs of strings", "why_tests_cant": "all pairs of strings", "anchors": ["private_join_and_compute/crypto/ec_commutative_cipher.cc: Encrypt, ReEncrypt"]}
{"id": "C21", "title": "Every cipher object holds a usable key", "statement": "Every way of creating a commutative cipher either fails or yields a cipher whose private key lies in [1, order); imported key bytes outside that range are refused.", "quantifier": "all key bytes, all seeds and tags", "why_tests_cant": "out-of-range keys are a measure-zero set tests never draw", "anchors": ["private_join_and_compute/crypto/ec_commutative_cipher.cc: CreateWithNewKey, CreateFromKey, CreateWithKeyFromSeed", "private_join_and_compute/crypto/ec_group.cc: CheckPrivateKey, GeneratePrivateKey"]}
{"id": "C22", "title": "Re-encrypting an ElGamal ciphertext encrypts the plaintext", "statement": "If (u,e) is an ElGamal encryption of m then the result of ReEncryptElGamalCiphertext under key K is an ElGamal encryption, under the same ElGamal key, of K*m.", "quantifier": "all ElGamal keys, cipher keys, messages, randomness", "why_tests_cant": "algebraic identity for all inputs", "anchors": ["private_join_and_compute/crypto/ec_commutative_cipher.cc: ReEncryptElGamalCiphertext"]}
{"id": "C23", "title": "ElGamal round trip", "statement": "Decrypting an ElGamal encryption of any group element returns it.", "quantifier": "all keys, messages, randomness", "why_tests_cant": "all inputs", "anchors": ["private_join_and_compute/crypto/elgamal.cc: ElGamalEncrypter::Encrypt, ElGamalDecrypter::Decrypt"]}
{"id": "C24", "title": "ElGamal homomorphisms", "statement": "Mul, Exp, GetZero and ReRandomize act on plaintexts as group addition, scalar multiplication, the identity and nothing; any finite combination of them decrypts to the corresponding combination of plaintexts.", "quantifier": "all finite expressions over ciphertexts", "why_tests_cant": "unbounded expressions", "anchors": ["private_join_and_compute/crypto/elgamal.cc: Mul, Exp, GetZero, ElGamalEncrypter::ReRandomize, IsCiphertextZero"]}
{"id": "C25", "title": "Joint ElGamal keys", "statement": "A ciphertext under the key combined from any nonempty list of public-key shares is decrypted by applying PartialDecrypt with each share's private key in any order; combining an empty list is refused.", "quantifier": "all numbers of parties, all orders, all shares", "why_tests_cant": "unbounded number of parties", "anchors": ["private_join_and_compute/crypto/elgamal.cc: GeneratePublicKeyFromShares, ElGamalDecrypter::PartialDecrypt"]}
{"id": "C26", "title": "Commutative ElGamal on strings", "statement": "CommutativeElGamal decrypts what it encrypted for every encoded non-identity point; layered encryption under several keys can be removed; a public-only object refuses to decrypt.", "quantifier": "all keys, encoded points, randomness", "why_tests_cant": "all inputs", "anchors": ["private_join_and_compute/crypto/commutative_elgamal.cc: Encrypt, Decrypt, EncryptIdentityElement, CreateFromPublicAndPrivateKeys"]}
{"id": "C27", "title": "Hashing to the curve yields a canonical valid point", "statement": "Whenever the try-and-increment hash returns, the result is a point of the curve, not the identity, with even y-coordinate, and depends on nothing but the input string: in particular not on which square root the library returns.", "quantifier": "all strings, all hash functions, all square-root implementations", "why_tests_cant": "all inputs and dependency behaviours", "anchors": ["private_join_and_compute/crypto/ec_group.cc: GetPointByHashingToCurveInternal, GetPointByHashingToCurveSha256/384/512, IsSquare"]}
{"id": "C28", "title": "Message padding onto the curve round-trips", "statement": "If GetPointByPaddingX(m,k) succeeds then RecoverXFromPaddedPoint of the result with the same k returns m.", "quantifier": "all m, k, curves", "why_tests_cant": "the failing case is one message per curve and padding size", "anchors": ["private_join_and_compute/crypto/ec_group.cc: GetPointByPaddingX, RecoverXFromPaddedPoint"]}
{"id": "C29", "title": "Only valid points get in", "statement": "CreateECPoint succeeds only on encodings of curve points other than the identity, and encoding then decoding a non-identity point returns it.", "quantifier": "all byte strings, all points", "why_tests_cant": "all byte strings", "anchors": ["private_join_and_compute/crypto/ec_group.cc: CreateECPoint, IsValid", "private_join_and_compute/crypto/ec_point.cc: ToBytesCompressed"]}
{"id": "C30", "title": "Random oracle range and determinism", "statement": "RandomOracleSha256/384/512(x, max) returns a value in [0,max) determined by x and max, for every hash function of the right output length, when max > 0 and the supported length is not exceeded: the digests of 1||x, 2||x, ... are concatenated, the top BitLength(max) + hash-length bits are kept and reduced modulo max. Distinct counters use distinct hash inputs while at most 255 blocks are needed, and the block count computed in float equals the exact ceiling.", "quantifier": "all strings, all positive bounds, all hash functions", "why_tests_cant": "unbounded inputs and hash functions", "anchors": ["private_join_and_compute/crypto/context.cc: RandomOracle"]}
{"id": "C31", "title": "PRF range and value", "statement": "When PRF(key, data, max) returns, the value is in [0,max) and is the low BitLength(max) bits of the first HMAC digest in the chain data, HMAC(data), HMAC(HMAC(data)), ... for which those bits are below max; keys under 80 bits and bounds over 512 bits are refused (check failure).", "quantifier": "all keys, data, bounds and HMAC functions", "why_tests_cant": "unbounded rejection loop", "anchors": ["private_join_and_compute/crypto/context.cc: PRF"]}
{"id": "C32", "title": "BigNum byte round trip and injectivity", "statement": "CreateBigNum(ToBytes(x)) = x for every x >= 0, ToBytes has no leading zero byte, and is injective on nonnegative numbers.", "quantifier": "all nonnegative integers and all byte strings", "why_tests_cant": "unbounded", "anchors": ["private_join_and_compute/crypto/big_num.cc: ToBytes, BigNum(bytes)", "private_join_and_compute/crypto/context.cc: CreateBigNum"]}
{"id": "C33", "title": "Modular operations return reduced residues", "statement": "Mod, ModAdd, ModSub, ModMul, ModExp, ModSqr, ModNegate, ModInverse return the mathematically right residue in [0,m).", "quantifier": "all integers (negative too) and all moduli m >= 1", "why_tests_cant": "unbounded", "anchors": ["private_join_and_compute/crypto/big_num.cc"]}
{"id": "C34", "title": "Discrete logarithm of bounded messages", "statement": "ShanksDiscreteLog finds the logarithm x of x*G for every x in [0, 2^max_message_size) and reports failure on points outside that range.", "quantifier": "all messages in range, all table sizes the factory accepts", "why_tests_cant": "the tests sample messages; table boundaries matter", "anchors": ["private_join_and_compute/crypto/shanks_discrete_log.cc: Create, PrecomputeTable, GetDiscreteLog"]}
{"id": "C35", "title": "CSV fields round-trip", "statement": "Splitting the line made by joining CSV-escaped fields with commas returns the fields.", "quantifier": "all lists of byte strings without NUL", "why_tests_cant": "quotes, commas and blanks in every combination", "anchors": ["private_join_and_compute/data_util.cc: EscapeForCsv, SplitCsvLine, SplitCSVLineWithDelimiter"]}
{"id": "C36", "title": "Dataset files round-trip", "statement": "Reading a dataset file written by WriteServerDatasetToFile / WriteClientDatasetToFile returns exactly the written identifiers and values in order.", "quantifier": "all lists of identifiers without NUL and newline bytes, of any length, all values in [0, 2^63) (with a newline in an identifier it fails)", "why_tests_cant": "all contents", "anchors": ["private_join_and_compute/data_util.cc: WriteServerDatasetToFile, ReadServerDatasetFromFile, WriteClientDatasetToFile, ReadClientDatasetFromFile", "private_join_and_compute/util/file_posix.cc: ReadLine", "private_join_and_compute/util/recordio.cc: LineWriterImpl, LineReaderImpl"]}
{"id": "C37", "title": "Dataset reader rejects malformed rows", "statement": "Reading succeeds only if every row has exactly the right number of columns and every value is a nonnegative 64-bit integer; the number of records returned equals the number of rows.", "quantifier": "all files", "why_tests_cant": "all malformed contents", "anchors": ["private_join_and_compute/data_util.cc: ReadServerDatasetFromFile, ReadClientDatasetFromFile"]}
{"id": "C38", "title": "Generated datasets have the promised shape", "statement": "GenerateRandomDatabases either fails with INVALID_ARGUMENT or returns a server list and a client list of the requested sizes whose common identifiers number at least the requested intersection size, values in [0, max), and the reported sum equal to the sum of the client's values on common identifiers.", "quantifier": "all parameter values and all random draws", "why_tests_cant": "random collisions and overflow boundaries", "anchors": ["private_join_and_compute/data_util.cc: GenerateRandomDatabases"]}
{"id": "C39", "title": "Record files round-trip", "statement": "Reading a file produced by writing records with RecordWriter returns exactly those records in order and then reports no more data.", "quantifier": "all lists of records of any content (also empty), each shorter than 2^31 bytes; all patterns of failing system calls", "why_tests_cant": "all contents and lengths", "anchors": ["private_join_and_compute/util/recordio.cc: RecordWriterImpl::Write, RecordReaderImpl::Read, HasMore, ExtractVarint32"]}
{"id": "C40", "title": "Damaged record files are detected, never misread", "statement": "If a record file is cut off at any byte (a crash while writing), reading yields the complete records before the cut and then either end of data or an error; never a wrong record. (The code does not check that the length could be read; this rests on protobuf leaving a nonzero value for an incomplete varint.)", "quantifier": "all files and all cut positions", "why_tests_cant": "all crash points", "anchors": ["private_join_and_compute/util/recordio.cc: RecordReaderImpl::Read, ExtractVarint32", "private_join_and_compute/util/file_posix.cc: Read, HasMore"]}
{"id": "C41", "title": "Line files round-trip", "statement": "Lines written by LineWriter are read back unchanged by LineReader.", "quantifier": "all lists of lines", "why_tests_cant": "long lines, NUL bytes, carriage returns", "anchors": ["private_join_and_compute/util/file_posix.cc: ReadLine", "private_join_and_compute/util/recordio.cc: LineWriterImpl, LineReaderImpl"]}
{"id": "C42", "title": "Merging reader returns everything in order", "statement": "A multi-sorted reader over files each sorted by key returns every record exactly once, in nondecreasing key order.", "quantifier": "all numbers of files, all sorted contents, all key functions", "why_tests_cant": "unbounded files", "anchors": ["private_join_and_compute/util/recordio.cc: MultiSortedReaderImpl"]}
{"id": "C43", "title": "A merging reader can be reused after a failed open", "statement": "After Open fails because a file cannot be opened, the reader can be opened again on good files.", "quantifier": "all file lists and failing positions", "why_tests_cant": "failure injection at each position", "anchors": ["private_join_and_compute/util/recordio.cc: MultiSortedReaderImpl::Open, Close"]}
{"id": "C44", "title": "Sharding writer loses and invents nothing", "statement": "If all writes and the close succeed, the concatenation of the shard files holds exactly the written records (as a multiset), each shard sorted by key, whatever the interleaving of concurrent writers and wherever the size limit forces a flush.", "quantifier": "all record sequences, all size limits, all interleavings of writer threads", "why_tests_cant": "all schedules", "anchors": ["private_join_and_compute/util/recordio.cc: ShardingWriterImpl"]}
{"id": "C45", "title": "A write error of the sharding writer is sticky until close", "statement": "Once a shard cannot be written every following Write fails until Close; Close reports the failure.", "quantifier": "all failure points", "why_tests_cant": "all crash points", "anchors": ["private_join_and_compute/util/recordio.cc: ShardingWriterImpl::Write, Close, WriteCacheToFile"]}
{"id": "C46", "title": "Shard merge produces one sorted file", "statement": "ShardMerger::Merge over sorted shard files writes all their records, and only those, in nondecreasing key order to the output.", "quantifier": "all shard lists", "why_tests_cant": "unbounded", "anchors": ["private_join_and_compute/util/recordio.cc: ShardMerger::Merge"]}
{"id": "C47", "title": "Parallel record processing is deterministic in content", "statement": "ProcessRecordFile writes, sorted by key, exactly the images of the input records under the processing function, for every thread count, chunk size and shard size limit; each input record is processed exactly once. (The input must not have the name of one of the temporary shard files.)", "quantifier": "all inputs, thread counts >= 1, chunk sizes >= 1, thread schedules", "why_tests_cant": "all schedules", "anchors": ["private_join_and_compute/util/process_record_file_util.h: ProcessRecordFile"]}
{"id": "C48", "title": "Path joining", "statement": "JoinPath puts exactly one separator between nonempty components and keeps all other characters; an absolute later component does not discard earlier ones.", "quantifier": "all lists of path strings", "why_tests_cant": "all strings", "anchors": ["private_join_and_compute/util/file.cc: JoinPathImpl, JoinPath"]}
{"id": "C49", "title": "Pedersen commitments open and verify", "statement": "A commitment made by Commit/CommitWithRand verifies with its messages and opening; the commitment value is the product of g_i^{m_i} and h^r; bad arguments are refused.", "quantifier": "all generator lists, messages, openings, moduli, table sizes", "why_tests_cant": "all inputs", "anchors": ["private_join_and_compute/crypto/pedersen_over_zn.cc: Commit, CommitWithRand, Verify"]}
{"id": "C50", "title": "Pedersen commitments are homomorphic", "statement": "Add of two commitments verifies against the sums of messages and openings; Multiply by a scalar >= 0 against the multiples. A negative scalar aborts.", "quantifier": "all generators, moduli > 1, commitments that verify, all scalars", "why_tests_cant": "all inputs", "anchors": ["private_join_and_compute/crypto/pedersen_over_zn.cc: Add, Multiply"]}
{"id": "C51", "title": "Honest parameter proofs verify", "statement": "A proof made by ProveParametersCorrectlyGenerated (either variant) for g = h^r is accepted by the matching verifier, for every hash function.", "quantifier": "all parameters, randomness, repetition counts, hash functions", "why_tests_cant": "all inputs", "anchors": ["private_join_and_compute/crypto/pedersen_over_zn.cc: ProveParametersCorrectlyGenerated, VerifyParamsProof, ProveParametersCorrectlyGeneratedForTrustedModulus, VerifyParamsProofForTrustedModulus"]}
{"id": "C52", "title": "Parameter proofs are special sound", "statement": "If the verifier accepts two proofs with the same first message for challenges differing at some repetition, then g is a power of h mod n (an exponent is computed from the responses). For the trusted-modulus variant, g^(c-c') is a power of h; when n is a product of two safe primes and challenges are shorter than (p-1)/2 and (q-1)/2, g^2 is a power of h, and g itself is when it is a quadratic residue.", "quantifier": "all g,h,n, all pairs of accepting proofs", "why_tests_cant": "adversarial proofs are an unbounded set", "anchors": ["private_join_and_compute/crypto/pedersen_over_zn.cc: VerifyParamsProof, VerifyParamsProofForTrustedModulus"]}
{"id": "C53", "title": "SplitVector partitions", "statement": "SplitVector returns pieces whose concatenation is the input; all but the last have exactly the requested size and the last is nonempty and not larger.", "quantifier": "all vectors of fewer than 2^31 elements and all positive sizes", "why_tests_cant": "all sizes", "anchors": ["private_join_and_compute/crypto/pedersen_over_zn.h: SplitVector"]}
{"id": "C54", "title": "Camenisch-Shoup decryption inverts encryption", "statement": "For every s >= 1, vector length, key and message vector with entries >= 0, decryption of an encryption returns the entries mod n^s, with zero for omitted entries.", "quantifier": "all s, n with smallest prime factor > s, keys, messages, randomness", "why_tests_cant": "all inputs", "anchors": ["private_join_and_compute/crypto/camenisch_shoup.cc: CommonEncryptWithRand, PrivateCamenischShoup::Decrypt"]}
{"id": "C55", "title": "Camenisch-Shoup homomorphisms", "statement": "Add and Multiply act componentwise on plaintexts mod n^s.", "quantifier": "all ciphertexts of the form produced by encryption and homomorphic operations", "why_tests_cant": "all inputs", "anchors": ["private_join_and_compute/crypto/camenisch_shoup.cc: PublicCamenischShoup::Add, Multiply"]}
{"id": "C56", "title": "Parsed Camenisch-Shoup ciphertexts are safe to use", "statement": "A ciphertext accepted by ParseCiphertextProto can be passed to Add, Multiply and Decrypt without out-of-range access or abort.", "quantifier": "all ciphertext protos", "why_tests_cant": "hostile protos", "anchors": ["private_join_and_compute/crypto/camenisch_shoup.cc: CommonParseCiphertextProto, Multiply, Add, Decrypt"]}
{"id": "C57", "title": "DY VRF evaluates the documented function and its key proof verifies", "statement": "Apply returns g^(1/(k+m)) for each message, and the key-generation proof of an honestly generated key is accepted for every hash function.", "quantifier": "all keys, messages, randomness, parameters", "why_tests_cant": "all inputs", "anchors": ["private_join_and_compute/crypto/dodis_yampolskiy_prf/dy_verifiable_random_function.cc: Apply, GenerateKeyPair, VerifyGenerateKeysProof"]}
{"id": "C58", "title": "Honest VRF evaluation proofs verify", "statement": "A proof made by GenerateApplyProof for honest evaluations and commitments is accepted by VerifyApplyProof.", "quantifier": "all message batches up to the Pedersen batch size, keys, randomness, hash functions", "why_tests_cant": "all inputs", "anchors": ["private_join_and_compute/crypto/dodis_yampolskiy_prf/dy_verifiable_random_function.cc: GenerateApplyProof, VerifyApplyProof"]}
{"id": "C59", "title": "VRF evaluation proofs are special sound", "statement": "From two accepted proofs with the same first message and different challenges c, c', each evaluation sigma_i satisfies sigma_i^(z_i - z_i') = g^(c - c'), so sigma_i is g to the inverse of the extracted exponent when c - c' is invertible mod the group order.", "quantifier": "all pairs of accepting proofs", "why_tests_cant": "adversarial proofs", "anchors": ["private_join_and_compute/crypto/dodis_yampolskiy_prf/dy_verifiable_random_function.cc: VerifyApplyProof"]}
{"id": "C60", "title": "Oblivious Boneh-Boyen signing is correct", "statement": "When request and response were generated honestly, extraction returns one point per message, in order, and point i times (m_i + k + y r_i) is the base point, where k and y are the two private keys.", "quantifier": "all messages, nonces, keys, masks, batch layouts", "why_tests_cant": "all inputs", "anchors": ["private_join_and_compute/crypto/dodis_yampolskiy_prf/bb_oblivious_signature.cc: GenerateRequestAndProof, GenerateResponseAndProof, ExtractResults"]}
{"id": "C61", "title": "Honest signing requests verify", "statement": "The request generator returns a request exactly if all its encryption randomness is coprime to the modulus. The proof is then accepted by VerifyRequest for every hash function, unless a masked encryption exponent in the proof is 0 or shares a factor with the modulus, in which case it is refused with InvalidArgument (and this does happen).", "quantifier": "all messages and nonces below the group order, keys, masks, dummies, batch layouts", "why_tests_cant": "all inputs", "anchors": ["private_join_and_compute/crypto/dodis_yampolskiy_prf/bb_oblivious_signature.cc: GenerateRequestAndProof, VerifyRequest"]}
{"id": "C62", "title": "Honest signing responses verify", "statement": "For an honest request, the response generator refuses with InvalidArgument exactly if some m_i + k + y r_i is 0 modulo the group order, otherwise with Internal exactly if a dummy exponent is 0 modulo the order, and otherwise returns a response whose proof VerifyResponse accepts, for every hash function.", "quantifier": "all messages, keys, masks, dummies, batch layouts", "why_tests_cant": "all inputs", "anchors": ["private_join_and_compute/crypto/dodis_yampolskiy_prf/bb_oblivious_signature.cc: GenerateResponseAndProof, VerifyResponse"]}
{"id": "C63", "title": "Request verification handles every request without undefined behaviour", "statement": "VerifyRequest returns a status (it neither aborts nor has undefined behaviour) for every request and proof a peer can send.", "quantifier": "all protos", "why_tests_cant": "hostile protos", "anchors": ["private_join_and_compute/crypto/dodis_yampolskiy_prf/bb_oblivious_signature.cc: VerifyRequest"]}
{"id": "C64", "title": "Key files round-trip", "statement": "EC and ElGamal keys written by the key utilities are read back equal and in range; the joint key file holds the sum of the shares; a key file for another curve is refused; when a second EC key message is appended to a first, the later curve id and key count.", "quantifier": "all keys", "why_tests_cant": "all keys", "anchors": ["private_join_and_compute/util/ec_key_util.cc", "private_join_and_compute/util/elgamal_key_util.cc", "private_join_and_compute/util/elgamal_proto_util.cc"]}
{"id": "C65", "title": "Sampling helpers stay in range", "statement": "GenerateRandLessThan, GenerateRandBetween, GeneratePrivateKey and RelativelyPrimeRandomLessThan return values in their documented ranges for every underlying random source, whenever they return.", "quantifier": "all bounds and random sources", "why_tests_cant": "all random outcomes", "anchors": ["private_join_and_compute/crypto/context.cc: GenerateRandBetween, RelativelyPrimeRandomLessThan", "private_join_and_compute/crypto/ec_group.cc: GeneratePrivateKey"]}
{"id": "C66", "title": "Client program reports success only with a complete run", "statement": "The client program returns 0 only if the protocol finished and output was printed; every transport or protocol failure gives a nonzero exit.", "quantifier": "all server behaviours", "why_tests_cant": "all failure points", "anchors": ["private_join_and_compute/client.cc: ExecuteProtocol"]}
{"id": "C67", "title": "Montgomery multiplication agrees with modular multiplication", "statement": "MontBigNum products, equality and conversions agree with those of residues modulo the modulus; an even or non-positive modulus and a number outside [0, modulus) end the process.", "quantifier": "all odd moduli and residues", "why_tests_cant": "all inputs", "anchors": ["private_join_and_compute/crypto/mont_mul.cc"]}
{"id": "C68", "title": "Fiat-Shamir inputs separate request and response proofs", "statement": "No string is hashed both for a request proof and for a response proof of the oblivious signature. (Both strings carry the same label, so this rests on the encodings of the statements.)", "quantifier": "all statements and first messages", "why_tests_cant": "all inputs", "anchors": ["private_join_and_compute/crypto/dodis_yampolskiy_prf/bb_oblivious_signature.cc: GenerateRequestProofChallenge, GenerateResponseProofChallenge"]}
{"id": "C69", "title": "Pedersen parameters: generation, serialization and parsing", "statement": "GenerateParameters returns h = x^2 and g_i = h^{r_i} mod n, all units in (0,n), with r_i < n/4, and each g_i can be proved correctly generated. Serialized parameters parse back to the same gs, h and n without the secret exponents. Whatever bytes are parsed, the result either consists of units in (0,n) or is INVALID_ARGUMENT.", "quantifier": "all moduli >= 4, all draws, all byte strings", "why_tests_cant": "all inputs including hostile bytes", "anchors": ["private_join_and_compute/crypto/pedersen_over_zn.cc: GenerateParameters, ParametersToProto, ParseParametersProto"]}
{"id": "C70", "title": "VRF verifiers return a status for every message", "statement": "VerifyGenerateKeysProof and VerifyApplyProof accept or return an error for every public key, commitment and proof a peer can send; they never abort or run into undefined behaviour.", "quantifier": "all byte strings in all proto fields, all hash functions", "why_tests_cant": "hostile protos", "anchors": ["private_join_and_compute/crypto/dodis_yampolskiy_prf/dy_verifiable_random_function.cc: VerifyGenerateKeysProof, VerifyApplyProof"]}
{"id": "C71", "title": "VRF challenges bind statement and first message", "statement": "The string hashed for a VRF key proof or evaluation proof determines the parameters, public key, commitment, evaluations and first message, and no string is hashed for both kinds of proof.", "quantifier": "all statements and first messages (encodings below 2^64 bytes)", "why_tests_cant": "all pairs of statements", "anchors": ["private_join_and_compute/crypto/dodis_yampolskiy_prf/dy_verifiable_random_function.cc: GenerateChallengeForGenerateKeysProof, GenerateApplyProofChallenge", "private_join_and_compute/crypto/proto/proto_util.cc: SerializeAsStringInOrder"]}
{"id": "C72", "title": "Pedersen parameter-proof challenges bind their statement", "statement": "The string hashed for a proof of correctly generated Pedersen parameters determines g, h, n and the first messages.", "quantifier": "all statements and first messages", "why_tests_cant": "all pairs of statements", "anchors": ["private_join_and_compute/crypto/pedersen_over_zn.cc: GetGenProofChallenge, GetGenProofChallengeForTrustedModulus"]}
{"id": "C73", "title": "VRF key proofs are special sound", "statement": "Two accepted key proofs with the same first message and challenges c, c' open the public key raised to c - c' as a commitment to one repeated value, and an accepted masked key is at most the group order shifted by challenge length + security parameter + 1.", "quantifier": "all pairs of accepting proofs", "why_tests_cant": "adversarial proofs", "anchors": ["private_join_and_compute/crypto/dodis_yampolskiy_prf/dy_verifiable_random_function.cc: VerifyGenerateKeysProof"]}
{"id": "C74", "title": "Oblivious-signature challenges bind the statement", "statement": "The string hashed for a request proof (or a response proof) determines the parameters, public key, commitments, request (and response) and the first message: two different statements or first messages never hash the same string.", "quantifier": "all statements and first messages whose serialisation is shorter than 2^64 bytes", "why_tests_cant": "all pairs of inputs", "anchors": ["private_join_and_compute/crypto/dodis_yampolskiy_prf/bb_oblivious_signature.cc: GenerateRequestProofChallenge, GenerateResponseProofChallenge"]}
{"id": "C75", "title": "Clients survive every signing response", "statement": "For a request the client generated itself, VerifyResponse returns a status for every response and proof a signer can send, and whenever it accepts, ExtractResults returns one point per message.", "quantifier": "all response and proof protos, all honest requests", "why_tests_cant": "hostile protos of any shape", "anchors": ["private_join_and_compute/crypto/dodis_yampolskiy_prf/bb_oblivious_signature.cc: VerifyResponse, ExtractResults"]}
{"id": "C76", "title": "Signing after verification never aborts", "statement": "Once VerifyRequest has accepted a request, GenerateResponseAndProof returns a status on it whatever the peer put into it; on an unverified request with too few ciphertexts its behaviour is undefined.", "quantifier": "all requests and proofs accepted by the verifier, all draws", "why_tests_cant": "hostile protos of any shape", "anchors": ["private_join_and_compute/crypto/dodis_yampolskiy_prf/bb_oblivious_signature.cc: VerifyRequest, GenerateResponseAndProof"]}
{"id": "C77", "title": "Files of protos round-trip", "statement": "A message, or a list of messages, written with WriteProtoToFile / WriteRecordsToFile is read back equal and in order with ReadProtoFromFile / ReadProtosFromFile, and no other file changes; a missing file is reported as NOT_FOUND.", "quantifier": "all lists of messages, all failing system calls", "why_tests_cant": "unbounded lists and contents", "anchors": ["private_join_and_compute/util/proto_util.h: ProtoUtils"]}
{"id": "C78", "title": "Point utilities produce and accept exactly curve points", "statement": "IsCurvePoint accepts exactly the encodings of points other than infinity; every string returned by GetRandomCurvePoint or HashToCurve is accepted; HashToCurve refuses hash types other than SHA256 and SHA512.", "quantifier": "all strings, draws and hash types", "why_tests_cant": "unbounded inputs", "anchors": ["private_join_and_compute/crypto/ec_point_util.cc: ECPointUtil"]}
{"id": "C79", "title": "Generated Paillier keys work", "statement": "GeneratePaillierKeyPair refuses nonsensical lengths and parameters with an error; when it returns, the two protos describe a usable key pair: the modulus is the product of two different safe primes, the public and the private object built from the protos accept, and decryption inverts encryption for every message below the message bound. Generation ends exactly when two different safe primes of half the length are drawn.", "quantifier": "all modulus lengths, all s, all results of the prime generator", "why_tests_cant": "keys are random and the domain of messages is unbounded; tests try one length", "anchors": ["private_join_and_compute/crypto/paillier.cc: GeneratePaillierKeyPair, PublicPaillier, PrivatePaillier"]}
{"id": "C80", "title": "Camenisch-Shoup keys and ciphertexts survive their proto form", "statement": "Converting a public key, a private key or a ciphertext to a proto and parsing it back gives the same object; freshly generated keys decrypt what they encrypt after any number of such conversions; parsing an arbitrary public-key proto never aborts; building the cryptosystem from arbitrary protos never aborts.", "quantifier": "all keys, all ciphertexts, all (also hostile) protos, all results of the prime generator", "why_tests_cant": "unbounded numbers and hostile inputs", "anchors": ["private_join_and_compute/crypto/camenisch_shoup.cc: GenerateCamenischShoupKey, CamenischShoupPublicKeyToProto, ParseCamenischShoupPublicKeyProto, CamenischShoupPrivateKeyToProto, ParseCamenischShoupPrivateKeyProto, PublicCamenischShoup::FromProto, PrivateCamenischShoup::FromProto"]}
{"id": "C81", "title": "BigNum arithmetic is integer arithmetic", "statement": "Sum, difference, product, negation and comparisons agree with the integers; Div succeeds exactly when the divisor is nonzero and divides, and is then exact; DivAndTruncate rounds towards zero; shifts multiply and divide by powers of two; bit length and bit tests agree with the binary expansion; ToIntValue is the identity on values it accepts and fails on all others; IsSafePrime is primality of p and (p-1)/2.", "quantifier": "all integers", "why_tests_cant": "unbounded integers", "anchors": ["private_join_and_compute/crypto/big_num.cc: BigNum"]}
{"id": "C82", "title": "An exported cipher key re-creates the same cipher", "statement": "For every commutative cipher with a nonzero key, GetPrivateKeyBytes followed by CreateFromKey gives a cipher that encrypts, re-encrypts and decrypts identically; two ciphers with the same exported bytes are the same.", "quantifier": "all ciphers, all curves", "why_tests_cant": "all keys, including those with leading zero bytes", "anchors": ["private_join_and_compute/crypto/ec_commutative_cipher.cc: GetPrivateKeyBytes, CreateFromKey"]}
{"id": "C83", "title": "The data generator prints the answer the protocol will compute", "statement": "generate_dummy_data exits 0 exactly when both files were written, and the printed intersection size and sum are those of the files; running the server program and the client program on these files prints the same numbers; the printed dataset sizes are those of the files; otherwise it exits 1 with a message.", "quantifier": "all flags, all draws, all points at which writing fails, all group and key choices of the protocol", "why_tests_cant": "random data, all failure points, whole tool chain", "anchors": ["private_join_and_compute/generate_dummy_data.cc: GenerateDummyDataMain", "private_join_and_compute/data_util.cc: GenerateRandomDatabases, WriteServerDatasetToFile, WriteClientDatasetToFile", "private_join_and_compute/client.cc: ExecuteProtocol"]}
{"id": "C84", "title": "Protocol messages survive serialization", "statement": "Every client and server message below 2 GB parses back to itself; different messages have different bytes; fields with numbers this version does not know are ignored wherever they occur; parsing two concatenated client messages gives the merge protobuf prescribes (later scalars win, repeated elements are appended, a different member of the oneof replaces); a message in which a field number 0 or one of the two non-existent wire types follows any well-formed fields does not parse.", "quantifier": "all messages, all unknown fields at all positions, all pairs of messages", "why_tests_cant": "all contents and lengths of repeated fields, all unknown fields", "anchors": ["private_join_and_compute/private_join_and_compute.proto: ClientMessage, ServerMessage", "private_join_and_compute/private_intersection_sum.proto: EncryptedElement, EncryptedSet, ClientRoundOne, ServerRoundOne, ServerRoundTwo"]}
{"id": "C85", "title": "A size-limited connection never changes the answer", "statement": "Over a connection that serializes messages and refuses those above a limit, the client program either exits 1 printing nothing or behaves exactly as if messages were handed over as objects; it succeeds and prints the intersection size and sum whenever the messages fit, with an explicit bound in the numbers of identifiers; and once the client's encrypted identifiers exceed the limit it always exits 1.", "quantifier": "all limits below 2 GB, all peers, all inputs, keys and draws", "why_tests_cant": "all dataset sizes around the limit, all peers", "anchors": ["private_join_and_compute/client.cc: ExecuteProtocol, InvokeServerHandleClientMessageSink", "private_join_and_compute/private_join_and_compute_rpc_impl.cc: Handle", "private_join_and_compute/server.cc: RunServer", "private_join_and_compute/private_join_and_compute.proto"]}
{"id": "C86", "title": "Private-key Paillier encryption blinds perfectly", "statement": "For every key pair and plaintext, every unit r modulo n is the randomness reported by private-key encryption for exactly one pair of the values drawn modulo the two primes, and the ciphertext is the public-key encryption with that r; if neither prime divides the other minus one, every public-key encryption of the plaintext results from exactly one pair of draws. So the fast private path has exactly the distribution of the public one.", "quantifier": "all keys, exponents s, plaintexts and units r", "why_tests_cant": "a statement about the whole distribution, over all keys", "anchors": ["private_join_and_compute/crypto/paillier.cc: PrivatePaillier::Encrypt, PrivatePaillierWithRand::EncryptAndGetRand, PrimeCrypto"]}
{"id": "C87", "title": "One encrypted identifier tells nothing about the identifier", "statement": "Whatever ciphertext Encrypt (or ReEncrypt) returns for one identifier, for every other identifier there is exactly one private key under which it has that same ciphertext: with a fresh key a single ciphertext is consistent with all identifiers equally.", "quantifier": "all lawful groups of prime order, keys, pairs of identifiers, hash types", "why_tests_cant": "all keys and identifiers of a group of cryptographic size", "anchors": ["private_join_and_compute/crypto/ec_commutative_cipher.cc: Encrypt, ReEncrypt"]}
{"id": "C88", "title": "Re-randomization of ElGamal ciphertexts is uniform", "statement": "Re-randomizing a ciphertext reaches every other ciphertext of the same plaintext by exactly one of the order-1 draws, and nothing else; encryption reaches every ciphertext of the plaintext whose first component is not the identity by exactly one draw.", "quantifier": "all lawful groups of prime order, keys, plaintexts, ciphertexts", "why_tests_cant": "a statement about the whole distribution, for groups of cryptographic size", "anchors": ["private_join_and_compute/crypto/elgamal.cc: Encrypt, ReRandomize"]}
{"id": "C89", "title": "Pedersen commitments hide statistically and bind up to the order of h", "statement": "With parameters from GenerateParameters, the number of openings of a commitment to a vector of messages is the same for all vectors of messages, up to one (n/M or n/M+1 of n draws, M the order of h); two openings of one commitment yield a relation between powers of h computable from the openings.", "quantifier": "all moduli, draws of parameters, message vectors and commitments", "why_tests_cant": "counts over all n draws for a modulus of cryptographic size", "anchors": ["private_join_and_compute/crypto/pedersen_over_zn.cc: GenerateParameters, Commit, Verify"]}
{"id": "C90", "title": "Proofs about Pedersen parameters reveal nothing about the exponents", "statement": "For every challenge, with the prover's masks uniform below the bounds the code uses, the proof returned by ProveParametersCorrectlyGenerated is distributed as that of a simulator that does not know the secret exponent, up to a statistical distance of repetitions/2^(zk+1); the variant for trusted moduli up to 2^-zk. Simulated proofs are accepted by the verifier when the hash function answers that challenge.", "quantifier": "all parameters, secrets, challenges, security parameters, and all events (distinguishers)", "why_tests_cant": "a statement about distributions over ranges of thousands of bits, against every distinguisher", "anchors": ["private_join_and_compute/crypto/pedersen_over_zn.cc: ProveParametersCorrectlyGenerated, ProveParametersCorrectlyGeneratedForTrustedModulus, VerifyParamsProof, VerifyParamsProofForTrustedModulus"]}
{"id": "C91", "title": "Proofs of the verifiable random function reveal nothing about key and messages", "statement": "For every challenge, with masks uniform below the bounds the code uses, the key proof of GenerateKeyPair is distributed as that of a simulator that does not know key or opening, up to 2/2^security; the result of GenerateApplyProof as that of a simulator that knows only the statement (evaluations and commitments), up to (messages+3)/2^security. Simulated proofs are accepted by the verifiers when the hash function answers that challenge.", "quantifier": "all lawful curves, parameters, keys, messages, openings, challenges and all events (distinguishers)", "why_tests_cant": "a statement about distributions over cryptographic ranges, against every distinguisher", "anchors": ["private_join_and_compute/crypto/dodis_yampolskiy_prf/dy_verifiable_random_function.cc: GenerateKeyPair, VerifyGenerateKeysProof, GenerateApplyProof, VerifyApplyProof"]}
{"id": "C92", "title": "File objects are safe to use in any order", "statement": "For every sequence of calls on a File object and its destruction: no undefined behaviour; a call without an open file, and Open with one, return INTERNAL and change nothing; at most one stream is open and none is leaked; Read calls return consecutive pieces of the file and HasMore tells whether something is left; reading or writing no bytes succeeds and changes nothing, and other reads and writes that the file was not opened for, or that meet a failing device, return INTERNAL; what is written is appended in order and no other file changes.", "quantifier": "all sequences of calls, all file contents, all failures of the C library (for freedom from undefined behaviour: failures other than of fclose, with which it fails)", "why_tests_cant": "ranges over all call histories and all patterns of I/O failures", "anchors": ["private_join_and_compute/util/file_posix.cc: PosixFile"]}
{"id": "C93", "title": "Proof systems refuse exactly the bad arguments", "statement": "Making or verifying a proof about Pedersen parameters with a non-positive security parameter, a base that is not a unit, a wrong exponent, or the wrong number of messages returns INVALID_ARGUMENT; a verifiable random function is created exactly from positive parameters and a valid base point, otherwise INVALID_ARGUMENT.", "quantifier": "all arguments, also malformed proofs", "why_tests_cant": "all integers and proofs, including boundaries", "anchors": ["private_join_and_compute/crypto/pedersen_over_zn.cc: ProveParametersCorrectlyGenerated, VerifyParamsProof, VerifyParamsProofForTrustedModulus", "private_join_and_compute/crypto/dodis_yampolskiy_prf/dy_verifiable_random_function.cc: Create"]}
{"id": "C94", "title": "An accepted response carries the right signatures (soundness of the response proof)", "statement": "Whatever the signer sends, when VerifyResponse accepts, all relations of the proof hold for a first message that the challenge is the hash of. For a request the client generated: if for some first message two proofs with challenges different modulo the order of the group are acceptable for a response, then ExtractResults returns, for every message, the Boneh-Boyen signature on it; so a signer whose response is wrong can answer at most one challenge (modulo the order) per first message.", "quantifier": "all responses and proofs, all honest requests, all keys and parameters with room for the ranges, all hash functions", "why_tests_cant": "quantifies over adversarial proofs and all parameters", "anchors": ["private_join_and_compute/crypto/dodis_yampolskiy_prf/bb_oblivious_signature.cc: VerifyResponse, ExtractResults"]}
{"id": "C95", "title": "An accepted request determines what it encrypts (soundness of the request proof)", "statement": "Whatever the client sends, when VerifyRequest accepts under the signer's keys, all relations of the proof hold for a first message that the challenge is the hash of: sizes, ranges, one equation per commitment and ciphertext. Two accepted proofs for one statement and first message open the d-th power of every commitment, d being the difference of the challenges, and the d-th power of every ciphertext of the request decrypts to the differences of alpha + b q + k a + y gamma.", "quantifier": "all requests and proofs, all keys, parameters and hash functions", "why_tests_cant": "quantifies over adversarial proofs and all parameters", "anchors": ["private_join_and_compute/crypto/dodis_yampolskiy_prf/bb_oblivious_signature.cc: VerifyRequest"]}
{"id": "C96", "title": "The server program has no data race", "statement": "While the server program runs, gRPC may call Handle on several threads at once and the main thread waits for the end of the protocol. Under every schedule of these threads no two of them access the same memory at the same time with one of them writing.", "quantifier": "all sets of requests, all schedules of request threads and the main thread", "why_tests_cant": "a race shows only under particular schedules, if at all", "anchors": ["private_join_and_compute/server.cc: RunServer", "private_join_and_compute/private_join_and_compute_rpc_impl.cc: Handle", "private_join_and_compute/server_impl.cc: Handle, EncryptSet, ComputeIntersection"]}
{"id": "C97", "title": "Simultaneous requests are served as if one after the other", "statement": "However requests overlap in time, the messages and statuses they get are those of some order of the same requests handled one at a time; no request makes another use freed memory; the service shuts down only after an answer to the client's round one has been computed.", "quantifier": "all sets of requests, all schedules of request threads and the main thread", "why_tests_cant": "the number of interleavings is unbounded; unit tests call Handle from one thread", "anchors": ["private_join_and_compute/server.cc: RunServer", "private_join_and_compute/private_join_and_compute_rpc_impl.cc: Handle", "private_join_and_compute/server_impl.cc: Handle, EncryptSet, ComputeIntersection"]}
{"id": "C98", "title": "File functions do what their string arguments say", "statement": "For every string view handed to the file functions, also one into the middle of a larger buffer: writing a line appends exactly the bytes viewed and a newline; writing a record appends exactly its encoding; Open, DeleteFile and RenameFile act on the file with the name viewed and on no other (rename moves the content and replaces what had the new name); a call that fails returns INTERNAL and changes no file; FileExists tells whether the file is there.", "quantifier": "all views (allocation, offset, length), all file systems, all failures; for lines the allocation must contain a NUL behind the start of the view, for names the view must be followed by a NUL and contain none: without that the property fails", "why_tests_cant": "ranges over all buffers a view can point into; tests pass literals and whole strings", "anchors": ["private_join_and_compute/util/recordio.cc: LineWriterImpl::Write, RecordWriterImpl::Write", "private_join_and_compute/util/file_posix.cc: PosixFile::Open, RenameFile, DeleteFile, FileExists"]}
{"id": "C99", "title": "Creating and deleting directories", "statement": "RecursivelyCreateDir never changes anything that exists and only adds directories on the way to the one asked for, whatever system call fails; OK means that the directory was not there and is there now with all above it; ALREADY_EXISTS means exactly that it was there, and changes nothing; INTERNAL without a failing call means that a file is in the way. RecursivelyDeleteDir changes nothing outside of the directory; after OK nothing of it is left; creating and then deleting keeps everything that existed.", "quantifier": "all trees of files, all paths, all patterns of failing mkdir calls, any part of the directory left behind by a failed removal", "why_tests_cant": "ranges over all file trees and all points of failure", "anchors": ["private_join_and_compute/util/file_posix.cc: RecursivelyCreateDir, RecursivelyDeleteDir, FileExists"]}
{"id": "C100", "title": "Request proofs of the oblivious signature reveal nothing about messages, nonces and blinding factors", "statement": "For every challenge, with masks uniform below the bounds the code uses, an honest request with its proof is distributed as the same request with the proof of a simulator that knows none of the secrets, up to (7 L + 7 + K)/2^security + K (N - phi(N))/N for L messages in K ciphertexts; the second term is the probability that a mask of the encryption randomness shares a factor with N and the request is refused. Simulated proofs are accepted by VerifyRequest when the hash function answers that challenge.", "quantifier": "all lawful curves, keys, parameters, messages, nonces, openings, requests, challenges, hash functions and all events (distinguishers)", "why_tests_cant": "a statement about distributions over cryptographic ranges, against every distinguisher", "anchors": ["private_join_and_compute/crypto/dodis_yampolskiy_prf/bb_oblivious_signature.cc: GenerateRequestAndProof, VerifyRequest"]}
{"id": "C101", "title": "Response proofs of the oblivious signature reveal nothing about the decryption key, the decrypted values and the opening", "statement": "For every challenge, with masks uniform below the bounds the code uses, the signer's response with its proof is distributed as the same response with the proof of a simulator that knows neither the decryption key nor the decrypted values nor the opening of the commitment to them, up to a distance that is negligible in the security parameter. Simulated proofs are accepted by VerifyResponse when the hash function answers that challenge.", "quantifier": "all lawful curves, keys, parameters, requests that decrypt to values invertible modulo the group order, challenges, hash functions and all events (distinguishers)", "why_tests_cant": "a statement about distributions over cryptographic ranges, against every distinguisher", "anchors": ["private_join_and_compute/crypto/dodis_yampolskiy_prf/bb_oblivious_signature.cc: GenerateResponseAndProof, VerifyResponse"]}
{"id": "C102", "title": "The signer learns nothing about messages and nonces from the values it decrypts", "statement": "With blinding factors uniform over the ranges the code uses, the list of values the signer decrypts from an honest request for L messages is distributed as a list that depends on no message, nonce or key, up to a statistical distance of L/2^(challenge length + security parameter). So two requests for equally many messages give lists at distance at most 2 L/2^(challenge length + security parameter).", "quantifier": "all lawful curves, keys, parameters, messages, nonces, openings, encryption randomness, hash functions and all events (distinguishers)", "why_tests_cant": "a statement about distributions over cryptographic ranges, against every distinguisher", "anchors": ["private_join_and_compute/crypto/dodis_yampolskiy_prf/bb_oblivious_signature.cc: GenerateRequestAndProof, GenerateResponseAndProof"]}
{"id": "C103", "title": "The server's answer tells the client no more than the size and the sum", "statement": "For two servers whose lists have the same number of identifiers in common with the client's list and the same sum of values, the server's last message is distributed alike up to a negligible distance. (False: the Jacobi symbol of the answer is the product of the symbols of the client's ciphertexts in the intersection. With equal symbols as well the distance is at most 3(p+q)/((p-1)(q-1)).)", "quantifier": "all lawful curves, all client lists without repetitions, all server lists, values, keys, safe primes other than 5, draws of both parties and all events (distinguishers)", "why_tests_cant": "a statement about distributions over all draws of the server, against every distinguisher; every single run of the protocol returns correct numbers", "anchors": ["private_join_and_compute/server_impl.cc: ComputeIntersection", "private_join_and_compute/client_impl.cc: ReEncryptSet", "private_join_and_compute/crypto/paillier.cc: GetGeneratorForSafeModulus, PublicPaillier::Encrypt, PrivatePaillier::Encrypt"]}
{"id": "C104", "title": "The server's first message hides which identifiers the server has", "statement": "With the hash to the curve a random oracle and the server's key uniform, every question about the hash values of all identifiers and the server's first message is answered as it is about a message of random points, up to the sum of the advantages that explicit algorithms have in the decisional Diffie-Hellman problem of the curve. So two servers with equally many distinct identifiers cannot be told apart with an advantage above 2 N delta, N the number of identifiers and delta a bound on those advantages.", "quantifier": "all lawful curves, sign conventions of the hash, numbers of identifiers, server lists, and all events (distinguishers) on hash values and message", "why_tests_cant": "a statement about distributions over cryptographic ranges, against every distinguisher", "anchors": ["private_join_and_compute/server_impl.cc: EncryptSet, Handle", "private_join_and_compute/crypto/ec_commutative_cipher.cc: Encrypt, CreateWithNewKey"]}
{"id": "C105", "title": "The client's message hides its identifiers but for the positions of the common ones", "statement": "With the hash to the curve a random oracle and the client's key uniform, every question the server can ask about the hash values of all identifiers and the client's message is answered alike for two clients with the same values whose lists have common identifiers with the server's list at the same positions, up to 2 N times a bound on the advantage of explicit algorithms in the decisional Diffie-Hellman problem. The positions themselves can be computed by the server from the message in every run.", "quantifier": "all lawful curves, sign conventions of the hash, numbers of identifiers, client and server lists without repetitions, values, Paillier keys and draws, server keys, and all events (distinguishers)", "why_tests_cant": "a statement about distributions over cryptographic ranges, against every distinguisher", "anchors": ["private_join_and_compute/client_impl.cc: ReEncryptSet, Handle", "private_join_and_compute/server_impl.cc: ComputeIntersection", "private_join_and_compute/crypto/ec_commutative_cipher.cc: Encrypt, ReEncrypt"]}
{"id": "C106", "title": "The client's message hides its identifiers and its values", "statement": "With the hash to the curve a random oracle and the client's key and encryption randomness uniform, every question about the hash values of all identifiers and the client's message is answered as it is about a message of random points and random ciphertexts, up to the sum of the advantages that explicit algorithms have in the decisional Diffie-Hellman problem of the curve and in the decisional composite residuosity problem of the client's modulus. So two clients with arbitrary values whose lists have common identifiers with the server's list at the same positions cannot be told apart with an advantage above 2 N delta + 2 M epsilon, N the number of identifiers, M the length of the lists, delta and epsilon bounds on those advantages.", "quantifier": "all lawful curves, sign conventions of the hash, numbers of identifiers, client and server lists without repetitions, values below n squared, admissible primes, server keys, and all events (distinguishers)", "why_tests_cant": "a statement about distributions over cryptographic ranges, against every distinguisher", "anchors": ["private_join_and_compute/client_impl.cc: ReEncryptSet, Handle", "private_join_and_compute/crypto/paillier.cc: PrivatePaillier::Encrypt", "private_join_and_compute/crypto/ec_commutative_cipher.cc: Encrypt, ReEncrypt"]}
{"id": "C107", "title": "In a whole run the client learns nothing about the server's set but size, sum and one sign", "statement": "With the hash to the curve a random oracle and the server's draws uniform, let two servers have equally many distinct identifiers, and let their intersections with the client's list have the same size, the same sum of values modulo n squared, and the same product of Jacobi symbols of the client's ciphertexts. Then no question about the hash values of all identifiers and everything the client receives in the run (the server's first message and its answer) tells the two servers apart with an advantage above 2 N delta + 2 N^2 / (order - 1) + 3 (p + q) / ((p - 1) (q - 1)), where delta bounds the advantage of explicit algorithms in the decisional Diffie-Hellman problem of the curve.", "quantifier": "all lawful curves, sign conventions of the hash, numbers of identifiers, client lists without repetitions, values below n squared, admissible primes, client keys and draws, server lists without repetitions, and all events (distinguishers)", "why_tests_cant": "a statement about joint distributions of two messages over cryptographic ranges, against every distinguisher", "anchors": ["private_join_and_compute/server_impl.cc: EncryptSet, ComputeIntersection, Handle", "private_join_and_compute/client_impl.cc: ReEncryptSet, Handle", "private_join_and_compute/crypto/paillier.cc: PublicPaillier::Encrypt, Add"]}
{"id": "C108", "title": "What a record reader makes of an arbitrary file", "statement": "For every file, whatever wrote it, reading to the end gives the records that the format rules give (a length of at most five bytes in base 128, modulo 2^32, then that many bytes) and ends with OK at the end of the data, INTERNAL if the file ends inside a length or a record, and INVALID_ARGUMENT if five bytes with the high bit set stand where a length should be. Reading always ends, and the records are together shorter than the file.", "quantifier": "all byte strings as file content", "why_tests_cant": "all file contents, including those no writer produces", "anchors": ["private_join_and_compute/util/recordio.cc: ExtractVarint32, RecordReaderImpl::Read", "private_join_and_compute/util/file_posix.cc: Read, HasMore"]}
{"id": "C109", "title": "The Java and Python random oracles are the C++ one", "statement": "For every input string, every positive bound and each of SHA-256, SHA-384 and SHA-512, the random oracles of the C++, Java and Python packages return the same number, which is at least 0 and below the bound, as long as the bound is within the limits of the C++ (130048 bits of digests) and Python (255 digests). Beyond its limit the C++ aborts and Python raises ValueError; Java has no limit. The conversions between numbers and bytes agree on every positive number and every byte string; at zero they differ (empty string, a zero byte, an exception). Java's own conversion of integers to bytes and back is the identity on all integers and gives the shortest array.", "quantifier": "all inputs, all positive bounds, all hash functions with SHA-2 digest lengths, all numbers and byte strings", "why_tests_cant": "three implementations with different number types agree for all inputs and sizes; a test compares a few known answers", "anchors": ["private_join_and_compute/crypto/context.cc: RandomOracle", "private_join_and_compute/java/com/google/privacy/private_join_and_compute/encryption/commutative/EcCommutativeCipherBase.java: randomOracle, bigIntegerToByteArrayCppCompatible, byteArrayToBigIntegerCppCompatible", "private_join_and_compute/py/crypto_util/ssl_util.py: RandomOracle", "private_join_and_compute/py/crypto_util/converters.py: LongToBytes, BytesToLong"]}
{"id": "C110", "title": "The three implementations hash to the same curve point", "statement": "For every string, the C++, Java and Python packages hash it to the same point of the curve, whatever root each square-root routine returns: without exception on P-256 and P-384 (the curves that all three offer) and on every curve that has no point with y-coordinate zero and has one with x-coordinate zero, and on other curves unless zero comes up as an x-coordinate. If it does on a curve without such a point (P-224 is one), the C++ goes on as for the empty string, Python as for a zero byte, and Java throws an index error.", "quantifier": "all strings, all curves over an odd prime field of at most 4096 bits, all hash functions with SHA-2 digest lengths, all square roots, any number of rounds", "why_tests_cant": "all strings and all numbers of rounds; the cases where they part have probability about 2^-224 and are not met by tests", "anchors": ["private_join_and_compute/crypto/ec_group.cc: GetPointByHashingToCurveInternal", "private_join_and_compute/java/com/google/privacy/private_join_and_compute/encryption/commutative/EcCommutativeCipher.java: hashIntoTheCurveInternal", "private_join_and_compute/py/crypto_util/elliptic_curve.py: HashToCurve, GetPointByHashingToCurve"]}
{"id": "C111", "title": "The named curves have the prime order the code relies on", "statement": "For P-224, P-256 and P-384 (the curves the programs and their tests name): the field is an odd prime field, the number of points of the curve, infinity included, is exactly the order in its parameters, this order is prime, the base point is a point, no point has y-coordinate zero. Hence the group object for each of them meets everything that the properties of ciphers, ElGamal and the protocol assume of a group; ECGroup::Create succeeds for their ids with that order, cofactor 1 and (p-1)/2, and returns INVALID_ARGUMENT for an id the library does not know.", "quantifier": "all points of the three curves (about 2^224, 2^256 and 2^384 of them), all hash functions and square roots, all curve ids", "why_tests_cant": "the points cannot be enumerated; a probabilistic primality test is no proof", "anchors": ["private_join_and_compute/crypto/ec_group.cc: ECGroup::Create, CreateGroup, CreateOrder, CreateCofactor, CreateCurveParams", "private_join_and_compute/crypto/ec_commutative_cipher.cc", "private_join_and_compute/client_impl.cc: NID_X9_62_prime256v1"]}
{"id": "C112", "title": "Keys and ciphertexts can be exchanged between the C++, Java and Python ciphers", "statement": "On the curves all three packages offer (P-256, P-384), for every key above 1 and below the order: all three packages take the key and export the same bytes; encrypting any string gives the same ciphertext bytes in all three; re-encrypting or decrypting any ciphertext that the C++ package accepts gives the same bytes in all three; encryption under two keys commutes and decryption removes one of them whichever packages perform the steps. Java and Python accept no ciphertext that C++ refuses, except hybrid encodings of a point (first byte 6 or 7), with the result for that point. A refusal by Java is IllegalArgumentException except for the empty ciphertext (an index error), one by Python an AssertionError except for the byte 0 (ValueError); C++ then returns INVALID_ARGUMENT. The exceptions are real: Java refuses the key 1 (which its own key generator can return), Python takes empty key bytes as a request for a random key and, over OpenSSL, keys above the order, and a second EncryptPoint on the same Python point object returns a double encryption. Without a hash type Java uses SHA-256 and Python SHA-512, so such ciphers do not match each other. Java's validateCiphertext is true for exactly the ciphertexts that reEncrypt takes, and a new Java key is uniform between 1 and the order.", "quantifier": "all keys, strings, ciphertext bytes, combinations of packages and hash types, all libraries with a correct square root and scalar multiplication", "why_tests_cant": "the interoperability tests use a few stored vectors; every key, string and malformed ciphertext, and every mix of packages, would have to be tried", "anchors": ["private_join_and_compute/crypto/ec_commutative_cipher.cc", "private_join_and_compute/java/com/google/privacy/private_join_and_compute/encryption/commutative/EcCommutativeCipher.java", "private_join_and_compute/java/com/google/privacy/private_join_and_compute/encryption/commutative/EcCommutativeCipherBase.java", "private_join_and_compute/py/ciphers/ec_cipher.py: EcCipher", "private_join_and_compute/py/crypto_util/elliptic_curve.py: ECPoint, ECKey"]}
{"id": "C113", "title": "ElGamal ciphertexts hide their contents, also under a joint key", "statement": "Someone who sees a public key, or a joint public key with all private shares but one, and can have one of two messages encrypted or one of two ciphertexts re-randomized, adaptively and any number of times, answers in the two cases with probabilities that differ by at most the Diffie-Hellman advantages of two explicit algorithms per question plus 2/(order-1) per question. This fails when a share is chosen after seeing the others: its maker can then decrypt alone.", "quantifier": "all groups of prime order (in particular P-224, P-256, P-384), all numbers and values of known shares, all adaptive spies with coins, all numbers of questions", "why_tests_cant": "a statement about probabilities against every spy, in groups of cryptographic size", "anchors": ["private_join_and_compute/crypto/elgamal.cc: GenerateKeyPair, GeneratePublicKeyFromShares, ElGamalEncrypter::Encrypt, ElGamalEncrypter::ReRandomize"]}
{"id": "C114", "title": "SSWU hashing to the curve always gives a point of the curve, and refuses other curves", "statement": "On P-256 and P-384, for every message and non-empty tag, GetPointByHashingToCurveSswuNu returns a point of the curve that is not at infinity, and GetPointByHashingToCurveSswuRo returns a point of the curve, which is at infinity exactly when the two points that RFC 9380 adds are opposite; a cipher with this hash type encrypts every other string to its key times the hash and decrypts it back to the hash, and fails with Internal on those. On every other curve both functions fail with InvalidArgument, although a cipher with this hash type can be created.", "quantifier": "all messages, tags, hash functions, keys and curve ids", "why_tests_cant": "the map has exceptional inputs that random tests never meet, and the domain is all strings", "anchors": ["private_join_and_compute/crypto/ec_group.cc: GetPointByHashingToCurveSswuRo, GetPointByHashingToCurveSswuNu", "private_join_and_compute/crypto/ec_commutative_cipher.cc: HashToTheCurveInternal, Encrypt"]}
{"id": "C115", "title": "The Python PRNG uses each byte of its seed's stream once and is unbiased", "statement": "A PRNG made from a seed of at least 32 bytes (shorter ones are refused with ValueError) gives, for every sequence of GetRand calls with whatever limits, the numbers that rejection sampling draws from the stream of SHA-512 values of counter and seed, each in [0, limit), with no byte used twice. Every number below the limit has the same number of chunks of bytes, and more than half of the draws are accepted. Different counters and seeds give different hash inputs. When the stream is used up GetRand raises AssertionError.", "quantifier": "all seeds, counter lengths, hash functions, histories of calls and limits", "why_tests_cant": "a statement about every history of calls and every seed; overlapping or skipped bytes at block boundaries depend on the exact sizes asked for", "anchors": ["private_join_and_compute/py/crypto_util/ssl_util.py: PRNG"]}
{"id": "C116", "title": "Python BigNums: results are exact and immutable objects do not change", "statement": "Every operation on Python BigNums gives a new immutable object with the exact result (quotients only when they are exact, inverses only when they exist, random numbers in the asked range), and no call changes an object that is immutable, nor any object other than the one it is called on. This fails for <<= and >>=, which change immutable and shared objects; negative results lose their sign in GetAsLong; ModNegate can return the modulus.", "quantifier": "all programs (sequences of calls on any objects), all numbers", "why_tests_cant": "aliasing: the damage shows in other objects and later calls, for particular sequences of calls", "anchors": ["private_join_and_compute/py/crypto_util/ssl_util.py: BigNum, BigNumCache"]}
{"id": "C117", "title": "Python big-number helpers are exact and release what they allocate", "statement": "ModExp, ModInverse and GetRandomInRange give the exact result for all Python integers they take (a uniform number of the range for the last; an AssertionError for modulus zero, a missing inverse or an empty range), and after a call that returned or raised the ssl library has the numbers it had before. For a with-block on any temporaries, each name is the number given for it, and afterwards exactly the block's numbers are freed, once each. Contrary to this wish: a negative exponent or modulus raises ValueError and leaves numbers allocated, each computing call leaves one library context allocated, and values given as bytes are silently read as zero although the documentation allows them.", "quantifier": "all integers, all names and values of temporaries, all bodies of with-blocks, all library states", "why_tests_cant": "leaks and double frees do not show in results, and the paths on which they occur are those where something raises in the middle", "anchors": ["private_join_and_compute/py/crypto_util/ssl_util.py: TempBNs, OpenSSLHelper, ModExp, ModInverse, GetRandomInRange"]}
{"id": "C118", "title": "Python point objects hold curve points and change only in place operators", "statement": "Whatever sequence of calls a program makes on ECPoint objects, each object holds a point of the curve; a call changes no object other than the left side of *= or +=. point * n, point + other, == and the in-place forms agree with the group; a random generator is never infinity, generates the whole curve and is uniform; a point made from the number or bytes of another is the same point, except that infinity is refused. Multiplying by a plain Python number is not refused: it is passed to the library as an address.", "quantifier": "all programs (sequences of calls on any objects), all points and numbers, all libraries that add, multiply and decode correctly", "why_tests_cant": "aliasing between point objects and invariants of all histories of calls; uniformity", "anchors": ["private_join_and_compute/py/crypto_util/elliptic_curve.py: ECPoint, EllipticCurve.GetRandomGenerator"]}
{"id": "C119", "title": "Python primality tests, bits and hashing of BigNum", "statement": "For an error probability eps > 0, IsPrime(eps) and IsSafePrime(eps) are always true for a prime (a safe prime), and true for any other number with probability at most eps; the number of rounds is the least sufficient one and eps <= 0 is a ValueError. IsBitSet and BitLength are exact for the magnitude. An object put into a set is found in it. Contrary to this wish: when the library's test fails its result is taken for 'prime'; IsSafePrime of 2 raises ValueError; an equal object is not found in the set, and an object on which Mutable() was called is not found either.", "quantifier": "all numbers, all error probabilities, all random choices of the library, all sets and hash functions", "why_tests_cant": "a probability over all random choices, for every composite number; equality of hashes for every pair of equal numbers", "anchors": ["private_join_and_compute/py/crypto_util/ssl_util.py: BigNum.IsPrime, BigNum.IsSafePrime, BigNum.IsBitSet, BigNum.BitLength, BigNum.__hash__, BigNum.__eq__"]}
{"id": "C120", "title": "Library locking is initialised once and excludes threads", "statement": "However threads are scheduled, the initialisation of the library's error strings and locking is done at most once and is complete when any call of OpenSSLInit() returns. Threads may make contexts and use the library at the same time: no two are ever inside the same library lock, no unlock of a mutex that was not locked and no failed check occurs, a waiting thread waits for a thread that is initialising or has the lock, and threads that take locks in increasing order never deadlock. Contrary to this wish: the constructor of Context uses the library before it calls OpenSSLInit(), so the guarantee needs that those uses take no lock or that OpenSSLInit() was called before the threads start; lock numbers past the table are not refused.", "quantifier": "all numbers of threads, all sequences of initialisations and lock uses per thread, all schedules", "why_tests_cant": "races depend on the schedule; tests run on few", "anchors": ["private_join_and_compute/crypto/openssl_init.cc: OpenSSLInit, CryptoLockingCallback", "private_join_and_compute/crypto/context.cc: Context::Context"]}
{"id": "C121", "title": "Camenisch-Shoup ciphertexts hide their messages", "statement": "Someone who sees a newly generated public key and can have one of two message vectors encrypted, adaptively and any number of times, answers in the two cases with probabilities that differ by at most the advantages of explicit algorithms, two per question and component, in the decisional Diffie-Hellman problem among the 2n^s-th powers modulo n^(s+1) and in the decisional composite residuosity problem. This is about Encrypt, which draws the randomness: EncryptWithRand accepts the randomness 0 and then shows the messages.", "quantifier": "all odd moduli without a prime factor up to s, all s, all vector lengths, all adaptive spies with coins whose vectors are accepted, all numbers of questions", "why_tests_cant": "a statement about probabilities against every spy, for moduli of cryptographic size", "anchors": ["private_join_and_compute/crypto/camenisch_shoup.cc: GetGeneratorForCamenischShoup, GenerateCamenischShoupKeyPair, PublicCamenischShoup::Encrypt, PublicCamenischShoup::EncryptWithRand"]}
{"id": "C122", "title": "Values of the Dodis-Yampolskiy function look random", "statement": "With a random generator and a new key, the values that Apply returns at messages that are distinct modulo the group order are like independent random points: a spy who sees the generator and the values answers with a probability that differs from that for random points by at most the advantages of one explicit algorithm per message in the decisional Diffie-Hellman inversion problem, plus 2/(order-1) per message. Messages that agree modulo the order have the same value with every key; they are not refused.", "quantifier": "all groups of prime order (in particular P-224, P-256, P-384), all lists of messages distinct modulo the order, all spies with coins", "why_tests_cant": "a statement about probabilities against every spy, in groups of cryptographic size", "anchors": ["private_join_and_compute/crypto/dodis_yampolskiy_prf/dy_verifiable_random_function.cc: GenerateKeyPair, Apply", "private_join_and_compute/crypto/ec_group.cc: GetRandomGenerator, GeneratePrivateKey"]}
{"id": "C123", "title": "Wrong signing responses are refused except by luck", "statement": "When SHA-512 behaves as a random function, a signer of any computing power that hashes at most Q strings and then answers an honest request has a response from which the client does not get its signatures accepted with probability at most (Q+1)/2^challenge_length. The bound is reached: with one-bit challenges a wrong response is accepted with probability exactly 1/2 without hashing. The challenge length must be at most 511 and 2^challenge_length at most the group order.", "quantifier": "all groups, keys, honest requests, adaptive signers and numbers of hash queries; probability over the values of the hash", "why_tests_cant": "a bound on a probability against every signer, over all hash functions", "anchors": ["private_join_and_compute/crypto/dodis_yampolskiy_prf/bb_oblivious_signature.cc: VerifyResponse, GenerateResponseProofChallenge, ExtractResults", "private_join_and_compute/crypto/context.cc: RandomOracleSha512"]}
{"id": "C124", "title": "Accepted proofs come from provers one can extract from", "statement": "When SHA-512 behaves as a random function: whatever a prover computes, if it asks for at most Q hashes and is accepted with probability a, then running it a second time with the same hash values up to the question its proof is made for and new ones from then on gives, with probability at least a(a/(Q+1) - 2^-challenge_length), two accepted proofs for the same statement with different challenges. For the key proof of the verifiable random function this opens the public key (raised to the difference of the challenges) as a commitment to one repeated value; for the evaluation proof it gives the exponents whose inverses times the base point are the evaluations and which open the commitment times the key; for the request proof of the oblivious signature it opens all commitments and gives what the ciphertexts decrypt to.", "quantifier": "all parameters, adaptive provers that choose statement and proof, numbers of hash queries; probability over the values of the hash", "why_tests_cant": "a bound on a probability against every prover, over all hash functions", "anchors": ["private_join_and_compute/crypto/dodis_yampolskiy_prf/dy_verifiable_random_function.cc: VerifyGenerateKeysProof, VerifyApplyProof", "private_join_and_compute/crypto/dodis_yampolskiy_prf/bb_oblivious_signature.cc: VerifyRequest, GenerateRequestProofChallenge", "private_join_and_compute/crypto/context.cc: RandomOracleSha512"]}
{"id": "C125", "title": "Wrong Pedersen parameters are believed only by luck", "statement": "When SHA-512 behaves as a random function: whatever a prover computes, if it asks for at most Q hashes, VerifyParamsProof accepts its proof with k repetitions for parameters in which g is not a power of h with probability at most (Q+1)/2^k, as the header promises; VerifyParamsProofForTrustedModulus, for a product of two safe primes, accepts a proof with challenges of len bits with probability at most (Q+1)/2^len. The first half is false: the first messages are hashed without their lengths, so the same hashed string can be cut into first messages after the challenge is known; for concrete wrong parameters (a safe modulus, h generating the squares) one hash suffices to be believed always, for every hash function and every number of repetitions from 2 on. It holds when the lengths of the first messages are fixed. The second half is false for g = n - h, accepted with probability 1/2 for every challenge length, and true when g is a square or g^2 is not a power of h.", "quantifier": "all wrong parameters, all provers (any computation, any number Q of hash questions, any choice of first messages and responses), all hash functions or all random choices of one, all numbers of repetitions and challenge lengths up to 511", "why_tests_cant": "Soundness speaks about every cheating prover; the test suite only corrupts a few fields of honest proofs, all of which are refused.", "anchors": ["private_join_and_compute/crypto/pedersen_over_zn.h: ProveParametersCorrectlyGenerated, VerifyParamsProof, VerifyParamsProofForTrustedModulus", "private_join_and_compute/crypto/pedersen_over_zn.cc: GetGenProofChallenge, VerifyParamsProof, GetTrustedGenProofChallenge, VerifyParamsProofForTrustedModulus"]}
{"id": "C126", "title": "Loops that reject unsuitable values end soon", "statement": "GetPointByHashingToCurveSha256/384/512, PRF, RelativelyPrimeRandomLessThan and the key generation draw or hash again while a value is unsuitable, without a bound on the number of rounds. With a random hash function, hashing any string to a curve with N points over a field of p elements has not returned after k rounds with probability at most (1 - (N-4)/(2p) + 2^-len)^k + 2k^2/p; for P-224, P-256 and P-384 it needs more than 128 rounds with probability at most 2^-127. With a random HMAC, PRF(key, data, max) has not returned after k calls with probability at most (1 - max/2^bits)^k + k^2/2^512, so at most 2^-k + k^2/2^512 for positive max; for max zero or negative it never returns. k uniform draws of RelativelyPrimeRandomLessThan(n) are all rejected with probability exactly (1 - phi(n)/n)^k. With m equally likely safe primes GeneratePaillierKeyPair still looks for a second prime after k draws with probability exactly (1/m)^k.", "quantifier": "all strings, keys and data; all curves with a prime field of at most 4096 bits; all three hash lengths; all numbers of rounds; all moduli; probability over all hash functions or all draws", "why_tests_cant": "A test runs the loops on a few inputs, on which they end; that they end on every input is a statement about the distribution of the values and about the chance of entering a cycle.", "anchors": ["private_join_and_compute/crypto/ec_group.cc: GetPointByHashingToCurveSha256, GetPointByHashingToCurveInternal", "private_join_and_compute/crypto/context.cc: RandomOracle, PRF, RelativelyPrimeRandomLessThan", "private_join_and_compute/crypto/paillier.cc: GeneratePaillierKeyPair"]}
{"id": "C127", "title": "A whole signing request hides messages and nonces", "statement": "Everything a client sends for a Boneh-Boyen signature, the commitments to messages and nonces, the request and its proof together, is distributed like something computed from public values and fresh randomness only, so a signer who follows the protocol learns nothing about messages and nonces beyond their number. The statistical distance is at most (7L+7+K)/2^sec + L/2^(chal+sec) + 3K(P+Q)/(PQ) + (L+5)(P'+Q')/(P'Q') for L messages in K ciphertexts, encryption modulus PQ and commitment modulus P'Q' products of safe primes; two clients with different messages and nonces are at most twice that apart.", "quantifier": "all parameters and keys the library generates; all numbers of messages and slots; all messages and nonces in range whose signature is defined; all values of the challenge; exact counts over all draws of the client", "why_tests_cant": "Hiding is a statement about the distribution of everything sent over all draws, jointly; a test sees single transcripts, and separate statements on the proof, the commitments and the plaintexts do not add up to one on the whole.", "anchors": ["private_join_and_compute/crypto/dodis_yampolskiy_prf/bb_oblivious_signature.cc: GenerateRequestAndProof, GenerateRequestProof", "private_join_and_compute/crypto/pedersen_over_zn.cc: Commit", "private_join_and_compute/crypto/camenisch_shoup.cc: EncryptAndGetRand, GetGeneratorForCamenischShoup"]}
{"id": "C128", "title": "A dishonest signer key reveals messages and nonces", "statement": "A client's request for Boneh-Boyen signatures is meant to show the signer nothing about messages and nonces (C127), which holds for public keys that GenerateKeys makes. It fails for other keys: the public key carries no proof and GenerateRequestAndProof does not look at it. A signer who encrypts numbers k >= q^2 + q^3 2^(chal+sec) and y >= q k (with q^2 y at most N^s) in the place of its two keys reads every message and nonce of every honest request off the decrypted values, whatever the client draws. VerifyResponse refuses the answer to such a request, but only after the request has been sent. For groups of up to 256 bits, chal + sec up to 500 and N^s of 2040 bits or more such k and y exist.", "quantifier": "all parameters the library generates in which such numbers fit; all encryption randomness in the key; all messages and nonces in range; all usable draws of the client; all hash functions", "why_tests_cant": "The tests use honest keys only; that a wrong key gives everything away for all messages and all draws is a statement about all of them.", "anchors": ["private_join_and_compute/crypto/dodis_yampolskiy_prf/bb_oblivious_signature.cc: GenerateKeys, GenerateRequestAndProof, VerifyResponse", "private_join_and_compute/crypto/dodis_yampolskiy_prf/bb_oblivious_signature.proto: PublicKey"]}
{"id": "C129", "title": "Signatures with random nonces cannot be forged", "statement": "\"This signature is unforgeable as long as r is chosen at random\" (bb_oblivious_signature.h): a forger who obtains N Boneh-Boyen signatures g/(m+k+yr), on messages it chooses one after the other with nonces r that are drawn at random after each choice, and then makes a signature on another pair (m, r), can be turned into two explicit algorithms for the strong Diffie-Hellman problem of the curve (given P, aP, ..., a^(N+1) P find c and 1/(a+c) P). The probability of a forgery is at most the sum of the probabilities that the two algorithms succeed, with no further loss.", "quantifier": "all groups of prime order, all numbers of signatures, all forgers (any adaptive choice of messages, any coins); exact probabilities over generator, keys, nonces and coins as the library draws them", "why_tests_cant": "Unforgeability speaks about every forger; a test can at most try particular ones.", "anchors": ["private_join_and_compute/crypto/dodis_yampolskiy_prf/bb_oblivious_signature.h: class comment", "private_join_and_compute/crypto/dodis_yampolskiy_prf/bb_oblivious_signature.cc: GenerateKeys, GenerateResponseAndProof", "private_join_and_compute/crypto/ec_group.cc: GetRandomGenerator, GeneratePrivateKey"]}
{"id": "C130", "title": "Commitments bind unless the modulus can be factored", "statement": "With parameters made by GenerateParameters for a modulus that is a product of two safe primes, anyone who produces a commitment and two openings that Verify accepts with different messages can be turned into an explicit algorithm that factors the modulus: it makes parameters itself, with longer exponents, runs the adversary once and takes one greatest common divisor. The probability of two openings is at most twice the probability that the algorithm finds a factor, plus (2k+2)/2^b for k messages and primes of about b bits. A party that does know the factors opens a commitment in two ways with every draw of the parameters.", "quantifier": "all products of two different safe primes greater than 5, all numbers of messages, all supported numbers of simultaneous bases, all adversaries (any function of the parameters and any coins); exact probabilities over the draws of GenerateParameters", "why_tests_cant": "Binding speaks about everything an adversary may compute from the parameters; a test can only try particular openings.", "anchors": ["private_join_and_compute/crypto/pedersen_over_zn.h: class comment, security notes", "private_join_and_compute/crypto/pedersen_over_zn.cc: GenerateParameters, Create, Verify"]}
{"id": "C131", "title": "Proved evaluations are unique", "statement": "With Pedersen parameters made by GenerateParameters for a product of two safe primes, nobody can get two different lists of evaluations accepted by VerifyApplyProof for one public key and one commitment to messages, unless the modulus can be factored. A prover of any computing power that asks for at most Q hash values and does so with probability a is turned into an explicit algorithm, which runs it three times, that factors the modulus with probability at least a/4 (a/(4(Q+1)) - 2^-c)^2, up to (k+2)/2^b for k generators, primes of about b bits and challenges of c bits. In particular the public key may be chosen by the prover and need not come with a proof.", "quantifier": "all products of two different safe primes greater than 5, all numbers of generators, all groups of prime order at least 2^c, all provers (any function of the parameters, coins and hash values), all public keys, commitments, evaluations and proofs they output; exact probabilities over the draws of GenerateParameters and a random function in place of SHA-512", "why_tests_cant": "Uniqueness, the property that makes the function verifiable, speaks about all proofs anyone might compute; tests only show that honest proofs are accepted and particular wrong ones are not.", "anchors": ["private_join_and_compute/crypto/dodis_yampolskiy_prf/dy_verifiable_random_function.cc: VerifyApplyProof, GenerateApplyProof", "private_join_and_compute/crypto/dodis_yampolskiy_prf/dy_verifiable_random_function.h: class comment", "private_join_and_compute/crypto/pedersen_over_zn.cc: GenerateParameters, Create, Verify"]}
{"id": "C132", "title": "Published evaluations look random", "statement": "Someone who sees a base made by GetRandomGenerator, a public key and its proof from GenerateKeyPair, the evaluations of any list of different messages and the proof by GenerateApplyProof, and who may ask the hash function everywhere, can not tell them from random points together with a public key and proofs made by a simulator that has no key: the probabilities differ by at most the advantages of explicit algorithms against the Diffie-Hellman inversion problem, one for each message, plus 2/(order-1) for each message, (N+5)/2^s for N messages and security parameter s, and (p+q-1)/(pq).", "quantifier": "all products of two different safe primes, all parameters made by GenerateParameters, all groups of prime order, all lists of different messages, all commitment openings, all spies (any predicate of what is published, the hash function and coins); exact probabilities over all draws and a random function in place of SHA-512", "why_tests_cant": "A proof that leaks a few bits of the key, by a mask that is too short or reused, is accepted by every verifier and gives the right evaluations; only a statement about distributions tells it apart.", "anchors": ["private_join_and_compute/crypto/dodis_yampolskiy_prf/dy_verifiable_random_function.cc: GenerateKeyPair, Apply, GenerateApplyProof", "private_join_and_compute/crypto/pedersen_over_zn.cc: GenerateParameters, CommitWithRand", "private_join_and_compute/crypto/ec_group.cc: GetRandomGenerator"]}
{"id": "C133", "title": "A signer's whole answer tells an honest requester nothing but the signatures", "statement": "The blinded signatures and the response proof that GenerateResponseAndProof sends for a request made by GenerateRequestAndProof are distributed like something computed from the signatures on the requested messages and nonces, the state the requester keeps, public values and fresh randomness; so the answer tells the requester nothing about the signing keys or the decryption key beyond the signatures. The statistical distance is at most (2L+l+kappa)/2^sec + L/q + (P+Q)/(PQ) for L messages, l slots, a group of order q and a commitment modulus PQ of safe primes that is at most kappa times the encryption modulus.", "quantifier": "all parameters and keys the library generates; all numbers of messages and slots; all messages and nonces in range whose signature is defined; all draws of the requester; all values of the challenge; exact counts over all draws of the signer", "why_tests_cant": "Signatures come out right and proofs verify whether or not masks are long enough or an opening is reused; what an answer reveals is a statement about distributions.", "anchors": ["private_join_and_compute/crypto/bb_oblivious_signature.cc: GenerateResponseAndProof, GenerateRequestAndProof, ExtractResults"]}
{"id": "C134", "title": "Who obtains signatures through the oblivious protocol cannot forge another one", "statement": "In a game where the generator, the Camenisch-Shoup key pair and the signer's keys are made by the library, a requester chooses messages, is given uniform nonces, sends commitments and a request made by GenerateRequestAndProof with randomness of its choice and sees the blinded signatures and the response proof of GenerateResponseAndProof. The probability that it then puts forward a signature on a message and nonce that it did not ask for is at most the success of two explicit algorithms for strong Diffie-Hellman in the group, plus the advantages of explicit algorithms for decisional Diffie-Hellman and decisional composite residuosity modulo the encryption modulus, plus (2L+l+kappa)/2^sec + L/q + (n mod M)/n.", "quantifier": "all parameters the library accepts with honest commitment parameters; all requesters with finitely many coins; all numbers of messages and slots; exact probabilities over all draws of set-up, signer and requester, with SHA-512 as a random function", "why_tests_cant": "Unforgeability is about every strategy of the requester and holds only under assumptions; a test sees one run.", "anchors": ["private_join_and_compute/crypto/bb_oblivious_signature.cc: GenerateKeys, GenerateRequestAndProof, GenerateResponseAndProof", "private_join_and_compute/crypto/camenisch_shoup.cc: GenerateCamenischShoupKeyPair"]}
{"id": "C135", "title": "Splitting a CSV line stays inside its buffer", "statement": "SplitCsvLine copies the line into a buffer and unescapes the columns in place. For every line this reads and writes only inside the buffer, never overwrites bytes that are still to be read, never fails its assertion, and returns the columns that reading the line as a string gives. The only undefined behaviour is std::isspace on a negative char: where char is signed it happens exactly when a column without quotes begins or ends with a byte from 128 to 254. Rows made of EscapeForCsv fields, and the lines of the client's data file, are read back with any bytes but NUL in the fields.", "quantifier": "every line of any length and content, signed and unsigned char; every list of fields without NUL", "why_tests_cant": "Out-of-bounds accesses and overlapping in-place writes depend on the exact placement of quotes, commas, white space and NULs in lines of unbounded length, and undefined behaviour need not show in a test.", "anchors": ["private_join_and_compute/data_util.cc: strndup_with_new, SplitCSVLineWithDelimiter, SplitCSVLineWithDelimiterForStrings, SplitCsvLine"]}
{"id": "C136", "title": "The Python generator draws uniform and independent numbers", "statement": "When SHA-512 behaves as a random function, the numbers that a new PRNG object returns from a sequence of GetRand calls are as good as independent uniform numbers: any two lists of numbers below the limits are equally likely; each has at most the probability 1/product of the limits, and at least (1 - 2^-k)^n of that when the stream has bytes for k draws of each of the n numbers; and what generators with different seeds of the same counter length return is independent.", "quantifier": "every seed of at least 32 bytes, every counter length, every list of limits and numbers below them, every k", "why_tests_cant": "Uniformity and independence are statements about the distribution over all hash functions, for limits of any size; a test sees a few values of one hash function, and a small bias from the rejection loop or a reused block would not show.", "anchors": ["private_join_and_compute/py/crypto_util/ssl_util.py: PRNG"]}
{"id": "C137", "title": "Random oracle and PRF results are uniform", "statement": "When the hash function is a random function, the numbers that RandomOracleSha256/384/512 return for n different strings, each with its own bound, cannot be told from independent uniform numbers below the bounds: for every set of results the probabilities differ by at most (1 + 2^-len)^n - 1, where len is the number of bits of the hash, and each single list of results has its uniform probability up to a factor between (1 - 2^-len)^n and (1 + 2^-len)^n. When HMAC under the key is a random function, PRF(key, data, max) is exactly uniform: it returns each number below max within k calls of itself with the same probability, (1 - P[not yet returned])/max.", "quantifier": "all numbers of different strings, all positive bounds that need at most 255 digests, all three hash lengths, all sets of results; all keys of at least 80 bits, all data, bounds up to 512 bits and numbers of rounds", "why_tests_cant": "A statement about the distribution over all hash functions and about every possible distinguishing set of results; a bias of the size in question, or a dependence between results, is far below what sampling can show.", "anchors": ["private_join_and_compute/crypto/context.cc: Context::RandomOracle, RandomOracleSha256, RandomOracleSha384, RandomOracleSha512, PRF", "private_join_and_compute/crypto/context.h"]}
{"id": "C138", "title": "Hashing to the curve is close to a random function", "statement": "When the hash function is a random function, the points that GetPointByHashingToCurveSha256/384/512 return for n different strings cannot be told from n independent uniform points with an even nonzero y-coordinate: for every set of results within k rounds the probabilities differ by at most ((1+d)/(1-d))^n - 1 + n*v + 8 n^2 k^2/p, where d = 2^-len, p is the size of the field and v bounds the probability that one string has not been hashed after k rounds. On P-224, P-256 and P-384 they differ by at most n/2^126 for 128 rounds and up to 2^55 strings. There are (order - 1)/2 such points on these curves, one of each pair of opposite points.", "quantifier": "all curves over a prime field of at most 4096 bits, all three hash lengths, all lists of different strings, all sets of results, all numbers of rounds; probability over all hash functions", "why_tests_cant": "The distribution over all hash functions, against every distinguisher of any number of results, including the strings that lead to the same intermediate value; sampling cannot see a distance of this size.", "anchors": ["private_join_and_compute/crypto/ec_group.cc: ECGroup::GetPointByHashingToCurveSha256, GetPointByHashingToCurveSha384, GetPointByHashingToCurveSha512, GetPointByHashingToCurveInternal", "private_join_and_compute/crypto/context.cc: Context::RandomOracle"]}
{"id": "C139", "title": "With a random SHA-256, a run on a NIST curve reveals no more than the sizes, the sum and the symbol", "statement": "Take SHA-256 as a random function and run the protocol on P-224, P-256 or P-384 with the code's own hash to the curve. Let N <= 2^55 be the number of identifiers that occur. Two clients whose identifiers meet the server's list at the same positions, with any values, cannot be told apart from the client's message with an advantage above 2N*delta + 2M*epsilon + N/2^124, and two servers with equally many identifiers that give the client the same intersection size, sum and product of Jacobi symbols cannot be told apart from everything the client receives with an advantage above 2N*delta + N/2^123 + 3(p+q)/((p-1)(q-1)), where delta and epsilon bound the Diffie-Hellman and composite residuosity advantages of explicit algorithms.", "quantifier": "all three curves, all lists of identifiers and values, all safe primes the client can use, all server and client configurations, all questions about the hash values and the messages; probability over the keys, the Paillier draws and SHA-256", "why_tests_cant": "Indistinguishability against every question, over all keys and all hash functions; a test compares a few runs.", "anchors": ["private_join_and_compute/crypto/ec_group.cc: ECGroup::GetPointByHashingToCurveSha256", "private_join_and_compute/crypto/ec_commutative_cipher.cc: ECCommutativeCipher::Encrypt, ReEncrypt", "private_join_and_compute/client_impl.cc: PrivateIntersectionSumProtocolClientImpl::ReEncryptSet", "private_join_and_compute/server_impl.cc: PrivateIntersectionSumProtocolServerImpl::EncryptSet, ComputeIntersection"]}
{"id": "C140", "title": "With a random SHA-256 that the parties can evaluate, a run on a NIST curve reveals no more than the sizes, the sum and the symbol", "statement": "Take SHA-256 as a random function that everyone can evaluate on every string, and run the protocol on P-224, P-256 or P-384 with the code's own hash to the curve. Let N <= 2^55 be the number of identifiers that occur. Two clients whose identifiers meet the server's list at the same positions, with any values, cannot be told apart from SHA-256 and the client's message with an advantage above 2N*delta + 2M*epsilon + N/2^124. Two servers with equally many identifiers that give the client the same intersection size, sum and product of Jacobi symbols cannot be told apart from SHA-256 and everything the client receives with an advantage above 2N*delta + N/2^123 + 3(p+q)/((p-1)(q-1)). Here delta and epsilon bound the Diffie-Hellman and composite residuosity advantages of explicit algorithms.", "quantifier": "all three curves, all lists of identifiers and values, all safe primes the client can use, all server and client configurations, all questions about SHA-256 as a function and the messages; probability over the keys, the Paillier draws and SHA-256", "why_tests_cant": "Indistinguishability against every question, also those that evaluate the hash function at will, over all keys and all hash functions; a test compares a few runs.", "anchors": ["private_join_and_compute/crypto/ec_group.cc: ECGroup::GetPointByHashingToCurveSha256", "private_join_and_compute/crypto/context.cc: Context::RandomOracleSha256", "private_join_and_compute/crypto/ec_commutative_cipher.cc: ECCommutativeCipher::Encrypt, ReEncrypt", "private_join_and_compute/client_impl.cc: PrivateIntersectionSumProtocolClientImpl::ReEncryptSet", "private_join_and_compute/server_impl.cc: PrivateIntersectionSumProtocolServerImpl::EncryptSet, ComputeIntersection"]}
{"id": "C141", "title": "Big numbers are independent values", "statement": "A program that makes, copies, assigns, moves, combines and destroys BigNum objects computes what the same program computes on plain integers, whatever objects it copies or moves and in whatever order: no statement changes an object other than its result and the source of a move; assigning an object to itself, or using it as operand and result, is harmless; moving leaves the source without a value and assigning from such an object ends the process; every number inside the library belongs to exactly one object, is freed once, and is gone when the objects are gone.", "quantifier": "all programs of constructions, copies, assignments, moves, arithmetic operations, coordinate recoveries and destructions, all values, all patterns of failing allocations where stated", "why_tests_cant": "Sharing, double frees and leaks show only after particular sequences of copies and moves, or when memory runs out at a particular allocation; there are unboundedly many sequences.", "anchors": ["private_join_and_compute/crypto/big_num.cc: BigNum::BigNum, operator=, Neg, GetLastNBits, Div, DivAndTruncate, ModNegate", "private_join_and_compute/crypto/big_num.h: BignumPtr, operator+= and the like", "private_join_and_compute/crypto/ec_point.cc: ECPoint::GetAffineCoordinates", "private_join_and_compute/crypto/ec_group.cc: ECGroup::RecoverXFromPaddedPoint"]}
{"id": "C142", "title": "A merging reader opened without a key returns the records in ascending order", "statement": "A merging reader opened with file names only, on files that each hold records in ascending order, returns every record exactly once and in ascending order, with the number of the file each came from; for strings the order is the byte order of std::string. Afterwards it can be closed and used again. A reader without any key function refuses to open with INVALID_ARGUMENT and stays as it is.", "quantifier": "all numbers of files, all contents, all choices of the priority queue among equal keys, readers of strings and of integers", "why_tests_cant": "Files and their interleavings are unbounded, and the order among equal keys depends on the library's heap; the unit tests only use readers of strings.", "anchors": ["private_join_and_compute/util/recordio.cc: MultiSortedReaderImpl::Open, MultiSortedReader<std::string>::Get, MultiSortedReader<int64_t>::Get", "private_join_and_compute/util/recordio.h: MultiSortedReader"]}
{"id": "C143", "title": "Montgomery numbers behave as independent residues", "statement": "A program that creates, copies, moves, assigns, multiplies (also in place and with itself), serializes and reads back, compares, converts and destroys MontBigNum objects sees what the same program sees on plain residues modulo the moduli of the contexts: no object changes through another, combining numbers of two contexts ends the process, and nothing is undefined unless a number that was moved away is used. Every number of the library belongs to one object and is freed with it.", "quantifier": "all programs of any length, all odd moduli and radices, any sharing of contexts", "why_tests_cant": "aliasing and ownership errors depend on the order of copies, moves and in-place operations; programs are unbounded", "anchors": ["private_join_and_compute/crypto/mont_mul.cc: MontBigNum, MontContext::CreateMontBigNum", "private_join_and_compute/crypto/mont_mul.h: MontBigNum"]}
{"id": "C144", "title": "Curve points behave as independent values", "statement": "A program that creates, clones, moves, adds, inverts, multiplies, compares and destroys ECPoint objects sees what the same program sees on plain group elements: no operation changes its operands or any other object, points of two curves are refused by Add with INTERNAL and are never equal, and nothing is undefined unless a point that was moved away is used. Every point of the library belongs to one object and is freed with it, also after errors.", "quantifier": "all programs of any length, all points and scalars, any number of curves", "why_tests_cant": "aliasing and ownership errors depend on the order of clones, moves and errors; programs are unbounded", "anchors": ["private_join_and_compute/crypto/ec_point.cc: ECPoint, Mul, Add, Clone, Inverse, IsPointAtInfinity, CompareTo", "private_join_and_compute/crypto/ec_group.cc: CreateECPoint, GetFixedGenerator, GetPointAtInfinity"]}
