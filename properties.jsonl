{"id": "C01", "title": "Any t shares reconstruct the secret", "statement": "If a polynomial with t>=1 coefficients is evaluated by eval/shares, then recover_secret called with any list of genuine shares (in any order, with None holes, with repetitions of genuine shares) that contains at least t distinct indices returns Ok of exactly the secret that was shared.", "quantifier": "every threshold t>=1, every coefficient list, every list of share options, every index set below the field characteristic, every HashMap iteration order", "why_tests_cant": "Tests use one polynomial and one subset; the number of subsets, orders and hash iteration orders is unbounded.", "anchors": ["src/share/poly.rs: recover_secret, xy_scalar, PriPoly::eval, PriPoly::shares"]}
{"id": "C02", "title": "Too few shares are always refused", "statement": "recover_secret, recover_commit and recover_pri_poly return an error (and never a value) when the supplied list contains fewer than t distinct share indices, whatever the share values are and however often a share is repeated.", "quantifier": "every share list, every threshold, every share value", "why_tests_cant": "A test can only try a few undersized lists; repetition of shares is the case that slips through.", "anchors": ["src/share/poly.rs: recover_secret, recover_commit, recover_pri_poly, xy_scalar, xy_commit"]}
{"id": "C03", "title": "Reconstruction does not depend on order", "statement": "For shares with pairwise distinct indices, permuting the input list, inserting or removing None entries, and any iteration order of the internal HashMaps leave the result of recover_secret / recover_commit / recover_pri_poly unchanged, even when the shares are inconsistent with any single polynomial.", "quantifier": "every list of shares with distinct indices, every permutation, every map iteration order", "why_tests_cant": "HashMap order is randomised per process, so a test observes one order out of t!; the claim is about all of them.", "anchors": ["src/share/poly.rs: recover_secret, recover_commit, recover_pri_poly, lagrange_basis"]}
{"id": "C04", "title": "recover_pri_poly returns the whole polynomial", "statement": "Given at least t distinct genuine shares of a polynomial with t coefficients, recover_pri_poly returns Ok of a polynomial with exactly the same t coefficients in the same order.", "quantifier": "every t>=1, polynomial, share list and iteration order", "why_tests_cant": "Coefficient-level equality for all polynomials is an algebraic identity, not a sample.", "anchors": ["src/share/poly.rs: recover_pri_poly, lagrange_basis, minus_const, PriPoly::mul, PriPoly::add"]}
{"id": "C05", "title": "Fewer than t shares reveal nothing", "statement": "For every set of at most t-1 shares with distinct indices and every candidate secret there is a polynomial with t coefficients that has this secret and yields exactly these shares; for exactly t-1 shares it is unique. So an observer of t-1 shares cannot exclude any secret.", "quantifier": "every t, every set of fewer than t indices, every observed share values, every candidate secret", "why_tests_cant": "Secrecy is a statement about all polynomials consistent with an observation; no test exhibits it.", "anchors": ["src/share/poly.rs: new_pri_poly, PriPoly::eval, PriPoly::secret"]}
{"id": "C06", "title": "Public commitments match private shares", "statement": "Committing to a polynomial and evaluating the public polynomial at index i gives the private share value times the base point; PubPoly::check accepts the genuine share at i, and accepts no other value for i when the base point generates a group where scalar multiplication is injective.", "quantifier": "every non-empty polynomial, every base point, every index, every claimed share value", "why_tests_cant": "Acceptance of exactly one value among all field elements cannot be sampled.", "anchors": ["src/share/poly.rs: PriPoly::commit, PubPoly::eval, PubPoly::check"]}
{"id": "C07", "title": "recover_commit recovers the public secret commitment", "statement": "From any list of genuine public shares with at least t distinct indices recover_commit returns the commitment p(0)*B; with private shares of the same polynomial the result equals recover_secret times B.", "quantifier": "every committed polynomial, share list, iteration order", "why_tests_cant": "Same as C01 in the exponent; unbounded subsets and orders.", "anchors": ["src/share/poly.rs: recover_commit, xy_commit"]}
{"id": "C08", "title": "recover_pub_poly rebuilds the commitment polynomial", "statement": "From any t distinct genuine public shares recover_pub_poly should return the commitments of the polynomial. (The code indexes shares by loop position instead of share index: the property only holds when the t smallest indices are exactly 0..t-1; for other index sets the call panics.)", "quantifier": "every committed polynomial, every set of at least t distinct indices", "why_tests_cant": "The unit test only uses the full share list, for which position and index coincide.", "anchors": ["src/share/poly.rs: recover_pub_poly, lagrange_basis"]}
{"id": "C09", "title": "Polynomial addition and multiplication are homomorphic", "statement": "PriPoly::add of equal-length polynomials yields the polynomial whose share at every index is the sum of the shares and whose secret is the sum of the secrets; it errs on different lengths. PriPoly::mul of non-empty polynomials yields d1+d2+1 coefficients and shares that are products. PubPoly::add matches PriPoly::add under commit.", "quantifier": "all pairs of polynomials, all indices", "why_tests_cant": "An identity over all coefficient vectors and all evaluation points.", "anchors": ["src/share/poly.rs: PriPoly::add, PriPoly::mul, PubPoly::add"]}
{"id": "C10", "title": "Polynomial equality is exact", "statement": "PriPoly::equal returns true exactly when the two polynomials have the same coefficients. PubPoly::equal should do the same for commitments. (It does not compare lengths: a longer polynomial with the same prefix is reported equal, and a shorter argument panics.)", "quantifier": "all pairs of polynomials over the same group", "why_tests_cant": "Tests compare equal-length polynomials only.", "anchors": ["src/share/poly.rs: PriPoly::equal, PubPoly::equal"]}
{"id": "C11", "title": "Schnorr signatures verify", "statement": "For every private key and message, the bytes returned by schnorr::sign are accepted by schnorr::verify under the matching public key, unless the public key or nonce point has small order.", "quantifier": "every private key, message, nonce, hash function", "why_tests_cant": "Unbounded key/message space; the exceptional points are never hit by random tests.", "anchors": ["src/sign/schnorr/schnorr_sig.rs: sign, verify, verify_with_checks, hash"]}
{"id": "C12", "title": "Schnorr verification accepts exactly valid signatures", "statement": "verify_with_checks returns Ok exactly when the signature has the right length, R and the public key decode, are canonical and not of small order, s is canonical and s*B = R + H(R,A,m)*A. In particular for a given R, key and message at most one s encoding is accepted, so a signature cannot be mauled by changing s.", "quantifier": "all byte strings as public key, message and signature", "why_tests_cant": "A claim about rejection of all other byte strings.", "anchors": ["src/sign/schnorr/schnorr_sig.rs: verify_with_checks"]}
{"id": "C13", "title": "Schnorr special soundness", "statement": "Two accepted signatures with the same R under the same key whose challenges differ determine the private key (s1-s2)/(h1-h2); hence reusing a nonce reveals the key and nobody without the key can answer two challenges.", "quantifier": "all keys, nonces, challenges", "why_tests_cant": "An extractor argument over all transcripts.", "anchors": ["src/sign/schnorr/schnorr_sig.rs: verify_with_checks"]}
{"id": "C14", "title": "EdDSA signatures verify and are deterministic", "statement": "For every seed-derived key and message, EdDSA::sign returns a 64-byte signature determined by key and message that eddsa::verify accepts under the key's public point (unless R or A has small order).", "quantifier": "every 32-byte seed, every message, every hash function", "why_tests_cant": "Unbounded inputs.", "anchors": ["src/sign/eddsa/eddsa_sig.rs: sign, verify, verify_with_checks, new"]}
{"id": "C15", "title": "EdDSA keys built from a key pair keep the private key secret", "statement": "A signature should not reveal the private key to someone who only has the signature, message and public key. (For an EdDSA value converted from a key Pair the nonce is a hash of the message only, so the private key is computable from any single signature with non-zero challenge.)", "quantifier": "every key pair and message", "why_tests_cant": "The leak is an algebraic consequence; the tests only check that signatures verify.", "anchors": ["src/sign/eddsa/eddsa_sig.rs: From<Pair> for EdDSA, sign"]}
{"id": "C16", "title": "EdDSA key serialisation round-trips", "statement": "marshal_binary of a key created from a 32-byte seed returns 64 bytes and unmarshal_binary of those bytes gives back a key with the same seed, prefix, secret scalar and public point; unmarshal rejects any length other than 64.", "quantifier": "every 32-byte seed, every byte string", "why_tests_cant": "All seeds, all lengths.", "anchors": ["src/sign/eddsa/eddsa_sig.rs: marshal_binary, unmarshal_binary, new"]}
{"id": "C17", "title": "Distributed signature: any t partials give the group signature", "statement": "When the long-term and random shares come from polynomials of t coefficients, any t valid partial signatures (from any subset of participants, in any order of arrival) make DSS::signature return the same bytes R||s, with s = r + H(R,A,m)*a for the shared secrets r, a, and these bytes satisfy the EdDSA verification equation for the group key.", "quantifier": "every n, t, subset of signers, arrival order, message, sharing polynomials", "why_tests_cant": "Exponentially many subsets and orders.", "anchors": ["src/sign/dss/dss_sig.rs: partial_sig, process_partial_sig, signature, hash_sig"]}
{"id": "C18", "title": "Distributed signature: bad partial signatures never enter", "statement": "process_partial_sig adds a partial signature only if its index is that of a participant, its Schnorr signature and session id are right, no partial of the same index was accepted before, and its value satisfies the public check; every rejected call leaves the state unchanged. So after any sequence of calls all stored partials are correct and have distinct indices.", "quantifier": "every sequence of partial_sig / process_partial_sig calls with arbitrary messages", "why_tests_cant": "Histories are unbounded.", "anchors": ["src/sign/dss/dss_sig.rs: process_partial_sig, partial_sig, enough_partial_sig"]}
{"id": "C19", "title": "ECIES round-trip", "statement": "decrypt(private, encrypt(public, msg)) returns msg for every key pair and message, and a ciphertext is the ephemeral point encoding followed by the AEAD output.", "quantifier": "every key pair, ephemeral scalar, message", "why_tests_cant": "Unbounded inputs.", "anchors": ["src/encrypt/ecies/ecies_impl.rs: encrypt, decrypt, derive_key"]}
{"id": "C20", "title": "ECIES decryption never panics", "statement": "decrypt should return an error for every malformed ciphertext. (It slices the first point_len bytes without a length check, so every ciphertext shorter than a point panics; for longer ones it returns Ok or Err.)", "quantifier": "every byte string as ciphertext", "why_tests_cant": "All malformed inputs.", "anchors": ["src/encrypt/ecies/ecies_impl.rs: decrypt"]}
{"id": "C21", "title": "Diffie-Hellman agreement and authenticated encryption", "statement": "Both parties derive the same shared point from their private key and the other's public key, hence AEAD::open with the receiver's key inverts AEAD::seal with the sender's, for equal context; a wrong key length is an error.", "quantifier": "all key pairs, contexts, messages", "why_tests_cant": "Unbounded inputs.", "anchors": ["src/dh/dh_impl.rs: dh_exchange, AEAD::new, AEAD::seal, AEAD::open"]}
{"id": "C22", "title": "VSS: an honest dealer is approved by every verifier", "statement": "For a dealer created by new_dealer with a valid threshold and any list of verifiers with distinct keys, every verifier that processes its encrypted deal returns an approval carrying the dealer's session id; once all approvals are processed the deal is certified at every party and recover_secret on any t of the deals returns the dealer's secret.", "quantifier": "every n, t, secret, key list, subset of deals, order of responses", "why_tests_cant": "Unbounded n, t and orders of delivery.", "anchors": ["src/share/vss/pedersen/vss.rs: new_dealer, encrypted_deal, process_encrypted_deal, process_response, deal_certified, recover_secret"]}
{"id": "C23", "title": "VSS: certification rule", "statement": "deal_certified returns true exactly when the dealer was not caught, there are at least t approvals and no complaint among the n verifiers, and before the timeout nobody is missing, after it at most n-t verifiers are missing.", "quantifier": "every state reachable by any history of deals, responses, justifications, timeouts", "why_tests_cant": "The state space is unbounded; the counting loop must agree with the rule in all of it.", "anchors": ["src/share/vss/pedersen/vss.rs: deal_certified, missing_responses"]}
{"id": "C24", "title": "VSS: approved shares lie on the committed polynomial", "statement": "A verifier only approves a deal whose share value times the base point equals the evaluation of the received commitments at its index and whose index and threshold are valid; therefore any t approved deals with the same t commitments recover a secret whose public commitment is the first commitment, and all subsets recover the same secret.", "quantifier": "every (malicious) deal, every subset of approving verifiers", "why_tests_cant": "Soundness against arbitrary dealers.", "anchors": ["src/share/vss/pedersen/vss.rs: verify_deal, process_encrypted_deal, recover_secret"]}
{"id": "C25", "title": "VSS: one deal, one response per verifier, never overwritten", "statement": "In every history, an aggregator stores at most one deal (a second encrypted deal is refused) and for each verifier index the first accepted response is kept forever; stored indices are always below n.", "quantifier": "every sequence of calls with arbitrary messages", "why_tests_cant": "Histories are unbounded.", "anchors": ["src/share/vss/pedersen/vss.rs: verify_deal, add_response, verify_response"]}
{"id": "C26", "title": "VSS: responses are authenticated", "statement": "Every response stored through process_response carries a signature that verifies under the public key at its index and, once a deal is known, the session id of the deal; otherwise the call fails and the state is unchanged.", "quantifier": "every sequence of calls with arbitrary responses", "why_tests_cant": "Arbitrary attacker messages.", "anchors": ["src/share/vss/pedersen/vss.rs: verify_response"]}
{"id": "C27", "title": "VSS: a justified complaint becomes an approval", "statement": "After a complaint, processing a justification with a correct deal should turn the complaint into an approval so that the deal can still be certified. (In the Pedersen variant the update is made on a copy: a complaint is permanent and the deal can never be certified. In the Rabin variant the update is stored.)", "quantifier": "every state and justification", "why_tests_cant": "A liveness claim over all histories.", "anchors": ["src/share/vss/pedersen/vss.rs: verify_justification", "src/share/vss/rabin/vss.rs: verify_justification"]}
{"id": "C28", "title": "VSS: a caught dealer stays caught", "statement": "A justification whose deal does not verify marks the dealer as bad, and from then on, whatever calls follow, deal_certified is false.", "quantifier": "every state, every later history", "why_tests_cant": "Unbounded later histories.", "anchors": ["src/share/vss/pedersen/vss.rs: verify_justification, deal_certified"]}
{"id": "C29", "title": "VSS: a justification needs the dealer's authority", "statement": "Only a justification signed by the dealer and containing the complainer's own share should be accepted. (Neither variant checks the signature, nor that the revealed share has the complainer's index: anyone can mark an honest dealer as bad with an unsigned garbage deal.)", "quantifier": "every justification message", "why_tests_cant": "Negative claim about arbitrary messages.", "anchors": ["src/share/vss/pedersen/vss.rs: verify_justification", "src/share/vss/rabin/vss.rs: verify_justification"]}
{"id": "C30", "title": "Rabin VSS: honest run and hiding commitments", "statement": "With new_dealer of the Rabin variant, every honest deal is approved (share times B plus blinding times H equals the committed evaluation), and the commitments are perfectly hiding: for every other secret polynomial there is exactly one blinding polynomial with the same commitments, when H is a multiple of B by a non-zero factor.", "quantifier": "every n, t, secret, blinding polynomial", "why_tests_cant": "All polynomials; hiding is about every alternative opening.", "anchors": ["src/share/vss/rabin/vss.rs: new_dealer, verify_deal"]}
{"id": "C31", "title": "Rabin VSS: binding of shares", "statement": "Two different openings (share, blinding) of the same commitment polynomial at the same index that both pass verify_deal reveal the discrete logarithm of H to base B; otherwise the share is unique.", "quantifier": "all deals, indices", "why_tests_cant": "Soundness against arbitrary dealers.", "anchors": ["src/share/vss/rabin/vss.rs: verify_deal"]}
{"id": "C32", "title": "Rabin VSS: certification rule and timeout", "statement": "deal_certified is true exactly when all n verifiers have a stored response, the dealer was not caught and at least t responses are approvals; set_timeout turns each missing response into a complaint and never changes an existing one.", "quantifier": "every reachable state", "why_tests_cant": "Unbounded state space.", "anchors": ["src/share/vss/rabin/vss.rs: deal_certified, enough_approvals, clean_verifiers, set_timeout"]}
{"id": "C33", "title": "DKG: all participants agree on one key with consistent shares", "statement": "When two participants finish a fresh distributed key generation with the same set of qualified dealers, they hold identical public commitments, each participant's share lies on that public polynomial, and any t shares recover a secret s with s*B equal to the distributed public key; s is the sum of the qualified dealers' secrets.", "quantifier": "every n, t, set of qualified dealers, dealers' polynomials, map iteration orders", "why_tests_cant": "Agreement over all subsets and orders.", "anchors": ["src/share/dkg/pedersen/dkg.rs: dist_key_share, dkg_key, qual"]}
{"id": "C34", "title": "DKG: resharing preserves the distributed key", "statement": "If t_old honest old participants reshare shares of a polynomial f and new participants use any t_old of the resulting deals, then the new shares lie on one polynomial of the new threshold with the same secret, and the new public key equals the old.", "quantifier": "every old/new threshold, subset of old dealers, sub-polynomials", "why_tests_cant": "Unbounded combinations.", "anchors": ["src/share/dkg/pedersen/dkg.rs: resharing_key, deals, process_deal"]}
{"id": "C35", "title": "DKG: renew keeps the key and refreshes the share", "statement": "DistKeyShare::renew accepts only a share of a polynomial with zero constant commitment and equal index, and the sum is a valid share for the same public key. (For a renewal polynomial with fewer commitments it panics, with more it silently drops the extra ones.)", "quantifier": "all key shares", "why_tests_cant": "All polynomials.", "anchors": ["src/share/dkg/pedersen/dkg.rs: DistKeyShare::renew"]}
{"id": "C36", "title": "DKG: qualified set", "statement": "qual returns exactly the dealer indices whose deal is certified (respectively, when resharing, the dealers with enough approving new participants), each at most once, independent of iteration order; certified holds exactly when enough dealers qualify.", "quantifier": "every reachable state", "why_tests_cant": "Unbounded state space.", "anchors": ["src/share/dkg/pedersen/dkg.rs: qual, qual_iter, certified, threshold_certified, qualified_shares"]}
{"id": "C37", "title": "DKG: finishing is safe with an unspecified threshold", "statement": "dist_key_share should return an error unless enough deals are certified. (If the configured threshold is left at 0 the check is vacuous and with no certified deal the call panics.)", "quantifier": "every configuration and state", "why_tests_cant": "Corner of the configuration space.", "anchors": ["src/share/dkg/pedersen/dkg.rs: threshold_certified, dkg_key"]}
{"id": "C38", "title": "DKG: duplicated keys are refused", "statement": "new_dist_key_handler should refuse participant lists with duplicated keys. (It returns Ok with no verifiers, and processing any deal then panics.)", "quantifier": "every participant list", "why_tests_cant": "Arbitrary lists.", "anchors": ["src/share/dkg/pedersen/dkg.rs: new_dist_key_handler, init_verifiers, process_deal"]}
{"id": "C39", "title": "Rabin DKG: reconstruction and final key", "statement": "In the Rabin DKG, when all qualified dealers' secret commitments are known, dist_key_share returns the sum of the deals' shares at the participant's index and the coefficientwise sum of the commitments; the share lies on that public polynomial, and the key is the sum of qualified secrets also when some dealers were reconstructed from t revealed shares.", "quantifier": "every set of dealers, every split into revealed and reconstructed", "why_tests_cant": "Unbounded combinations.", "anchors": ["src/share/dkg/rabin/dkg.rs: dist_key_share, process_secret_commits, process_reconstruct_commits, finished"]}
{"id": "C40", "title": "Rabin DKG: complaints and reconstruction need valid evidence", "statement": "A valid secret commitment should only be removed, and a dealer only be reconstructed, on valid evidence of the complaining participants. (Reconstruction shares are not checked against the deal, so t participants, or one forged share, can install an arbitrary polynomial for a dealer whose commitments have not arrived.)", "quantifier": "every message sequence", "why_tests_cant": "Arbitrary attacker messages.", "anchors": ["src/share/dkg/rabin/dkg.rs: process_complaint_commits, process_reconstruct_commits"]}
{"id": "C41", "title": "Modular integers implement ring arithmetic", "statement": "For modulus m>=2 and reduced operands, add, sub, mul, neg of Int return the reduced residue in [0,m) of the corresponding integer operation; inv returns the inverse for operands coprime to m.", "quantifier": "every modulus, all operands", "why_tests_cant": "Arbitrary precision operands.", "anchors": ["src/group/integer_field/integer.rs: Add, Mul, sub, neg, inv"]}
{"id": "C42", "title": "Modular division and exponentiation", "statement": "div(a,b) should be a*b^-1 and exp(a,e) should be a^e mod m. (div multiplies instead of dividing, exp raises the receiver instead of the argument, sqrt takes the integer square root.)", "quantifier": "every modulus, operands", "why_tests_cant": "The unit tests do not cover these calls.", "anchors": ["src/group/integer_field/integer.rs: div, exp, sqrt"]}
{"id": "C43", "title": "Modular integer encodings round-trip", "statement": "unmarshal_binary(marshal_binary(a)) = a for every reduced a in little-endian form, and unmarshal rejects values >= m. (Rejection leaves the unreduced value stored; big-endian marshalling panics when the value has leading zero bytes; little-endian output is not padded.)", "quantifier": "every modulus, value, byte string", "why_tests_cant": "All values including leading zero bytes, which random tests hit rarely.", "anchors": ["src/group/integer_field/integer.rs: marshal_binary, unmarshal_binary, little_endian, big_endian"]}
{"id": "C44", "title": "Random integers are in range and unbiased", "statement": "random_int(m) only ever returns values in [1,m-1], each value in the range being produced by the same number of equally long final draws; bits(n, exact) returns a value below 2^n, with top bit set when exact.", "quantifier": "every modulus, every stream of random bytes", "why_tests_cant": "Uniformity is a counting statement over all streams.", "anchors": ["src/util/random/random_stream.rs: random_int, bits"]}
{"id": "C45", "title": "Stream XOR is an involution and position-consistent", "statement": "For the XOF used as a stream cipher, encrypting with a stream in the same state twice gives back the plaintext, splitting a message into consecutive calls yields the same bytes as a single call, and a write after a read is refused.", "quantifier": "all seeds, messages, splittings", "why_tests_cant": "All splittings of all messages.", "anchors": ["src/xof/blake3/xof.rs: xor_key_stream, read, write, reseed"]}
{"id": "C46", "title": "Field arithmetic mod 2^255-19 is exact and overflow-free", "statement": "fe_add, fe_sub, fe_neg, fe_mul, fe_square, fe_square2 compute the sum, difference, negation, product, square and double square modulo 2^255-19 for all inputs within the documented limb bounds, no intermediate i32/i64 operation overflows, and the results satisfy the documented output bounds, so that the operations compose.", "quantifier": "every limb vector within the bounds", "why_tests_cant": "2^260 inputs; carries that go wrong with probability 2^-60 are invisible to tests.", "anchors": ["src/group/edwards25519/fe.rs: fe_add, fe_sub, fe_neg, fe_mul, fe_square, fe_square2"]}
{"id": "C47", "title": "Field inversion and square-root exponent", "statement": "fe_invert(z) is the inverse of z modulo 2^255-19 (0 for 0) and fe_pow22523(z) = z^((p-5)/8) for every bounded input.", "quantifier": "every limb vector within the bounds", "why_tests_cant": "Exponent chain correctness for all z.", "anchors": ["src/group/edwards25519/fe.rs: fe_invert, fe_pow22523"]}
{"id": "C48", "title": "Field element encoding is canonical", "statement": "fe_to_bytes returns the unique little-endian encoding below 2^255-19 of the represented value for every bounded limb vector; fe_from_bytes decodes every 32-byte string to its low 255 bits with limbs within bounds; so decode then encode is reduction modulo p.", "quantifier": "every bounded limb vector, every 32-byte string", "why_tests_cant": "Boundary values near p are never hit by chance.", "anchors": ["src/group/edwards25519/fe.rs: fe_to_bytes, fe_from_bytes, fe_is_negative, fe_is_non_zero"]}
{"id": "C49", "title": "Scalar arithmetic is exact modulo the group order", "statement": "sc_mul_add, sc_add, sc_sub and sc_mul return the canonical 32-byte encoding of ab+c, a+c, a-c, ab modulo l, below l, for all 32-byte inputs (reduced or not), and no intermediate i64 operation overflows.", "quantifier": "all 2^256 byte strings per operand", "why_tests_cant": "Carry chains over 24 limbs; rare carries cannot be sampled.", "anchors": ["src/group/edwards25519/scalar.rs: sc_mul_add, sc_add, sc_sub, sc_mul"]}
{"id": "C50", "title": "Scalars form the field of integers modulo l", "statement": "Through the Scalar API (add, sub, mul, neg, inv, div, one, zero) the type behaves as the field Z/l: inv(a)*a = 1 for a not divisible by l, div inverts mul; l is prime.", "quantifier": "all scalars", "why_tests_cant": "All operands; primality needs a certificate.", "anchors": ["src/group/edwards25519/scalar.rs: Add, Mul, sub, neg, inv, div, one, zero", "src/group/edwards25519/constants.rs: PRIME_ORDER"]}
{"id": "C51", "title": "Scalar setters ignore the receiver", "statement": "set_int64, set_bytes and pick should yield a value depending only on the argument. (set_int copies only the significant bytes into the receiver, so stale high bytes of a non-zero receiver remain.)", "quantifier": "all receivers and arguments", "why_tests_cant": "Tests always start from a fresh zero scalar.", "anchors": ["src/group/edwards25519/scalar.rs: set_int, set_int64, set_bytes, pick"]}
{"id": "C52", "title": "Scalar canonicity test is exact", "statement": "Scalar::is_canonical(b) is true exactly for 32-byte strings encoding an integer below the group order l.", "quantifier": "all byte strings", "why_tests_cant": "All strings around l.", "anchors": ["src/group/edwards25519/scalar.rs: is_canonical"]}
{"id": "C53", "title": "Point canonicity test is exact", "statement": "Point::is_canonical(b) should be true exactly for 32-byte strings whose low 255 bits are below p. (For encodings of p-217..p-1, i.e. ff..ff7f tails with low byte in [0x14,0xec], canonical encodings are rejected; all non-canonical ones are rejected.)", "quantifier": "all byte strings", "why_tests_cant": "Only 217 of 2^255 encodings are affected.", "anchors": ["src/group/edwards25519/point.rs: is_canonical"]}
{"id": "C54", "title": "Small order test is exact", "statement": "has_small_order is true exactly for points whose encoding (sign bit ignored) is one of the listed weak keys; these are exactly the points of order dividing 8.", "quantifier": "all points", "why_tests_cant": "All points of the curve.", "anchors": ["src/group/edwards25519/point.rs: has_small_order", "src/group/edwards25519/constants.rs: WEAK_KEYS"]}
{"id": "C55", "title": "Point addition formulas implement the Edwards group law", "statement": "add, sub, neg, double on extended/projective/cached representations compute the complete twisted Edwards addition law on affine points, never divide by zero, keep the result on the curve and the extended invariant XY=ZT.", "quantifier": "all pairs of curve points in any representation", "why_tests_cant": "Completeness is an algebraic statement over all points (including doubling and identity cases).", "anchors": ["src/group/edwards25519/ge.rs: CompletedGroupElement::add/sub/mixed_add/mixed_sub/to_extended/to_projective, ExtendedGroupElement::double/neg/write_cached"]}
{"id": "C56", "title": "Scalar multiplication is repeated addition", "statement": "Point::mul(s, P) is the s-fold sum of P for every scalar byte string below 2^255, for both the base-point table and the generic routine.", "quantifier": "all scalars, all points", "why_tests_cant": "All scalars, all digit recodings.", "anchors": ["src/group/edwards25519/ge.rs: ge_scalar_mult, ge_scalar_mult_base", "src/group/edwards25519/constants.rs: BASE"]}
{"id": "C57", "title": "Point encoding round-trips", "statement": "unmarshal_binary(marshal_binary(P)) succeeds and gives a point equal to P for every curve point; equality of points holds exactly when the affine coordinates agree.", "quantifier": "all curve points in all representations", "why_tests_cant": "All points, all projective representatives.", "anchors": ["src/group/edwards25519/point.rs: marshal_binary, unmarshal_binary, eq", "src/group/edwards25519/ge.rs: write_bytes, set_bytes"]}
{"id": "C58", "title": "Decoding accepts only curve points", "statement": "Whenever set_bytes/unmarshal_binary succeeds the resulting point lies on the curve, has the encoded y modulo p, and (for x not 0) the encoded sign; inputs of wrong length are errors, not panics.", "quantifier": "all byte strings", "why_tests_cant": "All byte strings.", "anchors": ["src/group/edwards25519/ge.rs: set_bytes", "src/group/edwards25519/point.rs: unmarshal_binary"]}
{"id": "C59", "title": "Embedded data is recovered", "statement": "data(embed(d)) returns the first min(29,len d) bytes of d for every point returned by embed.", "quantifier": "all data, all random streams", "why_tests_cant": "Rejection-sampling loop with unbounded streams.", "anchors": ["src/group/edwards25519/point.rs: embed, data, embed_len"]}
{"id": "C60", "title": "Clamped private keys avoid small subgroups", "statement": "new_key_and_seed_with_input yields a scalar multiple of 8 with bit 254 set, bit 255 clear, so that multiplying any point of order dividing 8 gives the identity and the key is never zero modulo the point order.", "quantifier": "every input seed, every hash", "why_tests_cant": "All seeds.", "anchors": ["src/group/edwards25519/curve.rs: new_key_and_seed_with_input"]}
{"id": "C61", "title": "The committed polynomial has degree below the threshold", "statement": "A verifier of the Pedersen VSS approves a deal only if it carries exactly t commitments, so that any t approved deals of a certified session recover the same, committed secret.", "quantifier": "all deals by any dealer, all sets of t verifiers", "why_tests_cant": "The dealer is adversarial; tests only use honestly built deals, whose commitment list always has length t.", "anchors": ["src/share/vss/pedersen/vss.rs: Aggregator::verify_deal, recover_secret"]}
{"id": "C62", "title": "The announced threshold is enforced", "statement": "A verifier on which set_threshold(t) was called before the deal arrived does not approve a deal with a threshold other than t.", "quantifier": "all deals, all thresholds", "why_tests_cant": "Requires a dealer that disagrees with the announcement.", "anchors": ["src/share/vss/pedersen/vss.rs: Aggregator::set_threshold, verify_deal"]}
{"id": "C63", "title": "Verifiers agree on the commitments", "statement": "If two verifiers of the same dealer and verifier list both end with a certified deal, their deals carry the same commitments (no equivocation), for a collision-free hash.", "quantifier": "all message histories delivered to both verifiers, adversarial dealer", "why_tests_cant": "Equivocation needs a dealer sending different, individually valid deals.", "anchors": ["src/share/vss/pedersen/vss.rs: Verifier::process_encrypted_deal, Aggregator::verify_response, session_id"]}
{"id": "C64", "title": "deal() returns only a deal that passed the verifier's check", "statement": "Whatever messages arrive, the deal returned by Verifier::deal is the verifier's own share, has a valid threshold and lies on the committed polynomial; a deal this verifier complained about is never handed out as certified.", "quantifier": "all histories of network messages, adversarial dealer and verifiers", "why_tests_cant": "Needs interleavings of replayed responses, bad deals and approvals.", "anchors": ["src/share/vss/pedersen/vss.rs: Verifier::deal, process_encrypted_deal", "src/share/vss/rabin/vss.rs: Verifier::deal, process_encrypted_deal"]}
{"id": "C65", "title": "An accepted justification reveals a share of the polynomial that was dealt", "statement": "If process_justification accepts, the revealed share lies on the commitments of the deal the verifier stored, so the complaint it answers really is refuted.", "quantifier": "all histories, all justifications", "why_tests_cant": "Needs a dealer that justifies with a second polynomial.", "anchors": ["src/share/vss/pedersen/vss.rs: Aggregator::verify_justification", "src/share/vss/rabin/vss.rs: Aggregator::verify_justification"]}
{"id": "C66", "title": "Modular integers stay in the documented range", "statement": "Every Int of modulus m>=2 built by any sequence of library calls has its value in 0..m-1.", "quantifier": "all sequences of calls, all moduli and arguments", "why_tests_cant": "Induction over call sequences; the offending calls need specific arguments (negative multiples of m, refused encodings).", "anchors": ["src/group/integer_field/integer.rs: Int, set_int64, init64, init, unmarshal_binary"]}
{"id": "C67", "title": "RandStream mixes all working readers and obeys the Stream contract", "statement": "A call fails only on mismatched lengths or when every reader fails; otherwise the output is the XOF stream of the hash of all bytes delivered; consecutive calls behave like one call with the concatenated source, as the Stream trait documents.", "quantifier": "all readers, all failures, all calls", "why_tests_cant": "Depends on failing readers and on splitting.", "anchors": ["src/util/random/random_stream.rs: RandStream::xor_key_stream", "src/cipher/stream.rs: Stream"]}
{"id": "C68", "title": "Encoded scalars determine the scalar", "statement": "marshal_binary of a scalar never fails and encodes its residue modulo l; decoding gives the scalar back; two scalars with the same encoding are equal. (unmarshal_binary does not reduce and == compares raw bytes, so this fails for non-reduced scalars.)", "quantifier": "all 32-byte scalars, all data", "why_tests_cant": "2^256 stored values; the failing ones are those decoded from non-canonical encodings.", "anchors": ["src/group/edwards25519/scalar.rs: marshal_binary, unmarshal_binary, PartialEq, new_scalar_int"]}
{"id": "C69", "title": "Multiplication by every value a Scalar can hold", "statement": "Point::mul(s, Some(P)) equals the s-fold sum of P for every Scalar value that the API can produce, including the values that Scalar::unmarshal_binary stores unreduced.", "quantifier": "every 32-byte scalar value, every curve point", "why_tests_cant": "The top signed digit exceeds 8 only for scalars with the top bit set; the test vectors are reduced scalars.", "anchors": ["src/group/edwards25519/ge.rs: ge_scalar_mult, ge_scalar_mult_base, select_cached, select_pre_computed", "src/group/edwards25519/scalar.rs: unmarshal_binary"]}
{"id": "C70", "title": "Scalars act linearly on points", "statement": "For all scalars a, b and points P, Q: (a+b)P = aP + bP, (ab)P = a(bP), a(P+Q) = aP + aQ, 1P = P, 0P = O, where scalar operations reduce modulo the prime order.", "quantifier": "every pair of scalars, every point of the curve, also outside the prime-order subgroup", "why_tests_cant": "The law fails only for points with a small-order component, which random testing in the subgroup never meets.", "anchors": ["src/group/edwards25519/point.rs: mul, add", "src/group/edwards25519/scalar.rs: add, mul"]}
{"id": "C71", "title": "Decoding of points is strict", "statement": "Every byte string that Point::unmarshal_binary accepts is the string that marshal_binary produces for the decoded point, so that a point has exactly one accepted encoding.", "quantifier": "every byte string", "why_tests_cant": "Only a few dozen of the 2^256 strings are exceptions.", "anchors": ["src/group/edwards25519/point.rs: unmarshal_binary, marshal_binary", "src/group/edwards25519/ge.rs: set_bytes, write_bytes"]}
{"id": "C72", "title": "A refused decoding leaves the receiver unchanged", "statement": "When Point::unmarshal_binary returns an error, the receiver is still equal to the point it was before.", "quantifier": "every receiver, every refused byte string", "why_tests_cant": "Tests discard the receiver after an error.", "anchors": ["src/group/edwards25519/point.rs: unmarshal_binary", "src/group/edwards25519/ge.rs: set_bytes"]}
{"id": "C73", "title": "The documented group order is right", "statement": "The curve has exactly FULL_ORDER = 8 * PRIME_ORDER points; the base point has order PRIME_ORDER, which is prime; the multiples of the base point are exactly the points killed by PRIME_ORDER; distinct reduced scalars give distinct multiples of the base point.", "quantifier": "every point of the curve, every pair of reduced scalars", "why_tests_cant": "A group of 2^255 elements cannot be enumerated.", "anchors": ["src/group/edwards25519/constants.rs: PRIME_ORDER, COFACTOR, FULL_ORDER, BASEEXT"]}
{"id": "C74", "title": "Enough qualified dealers suffice for a key", "statement": "In a fresh Pedersen DKG with a specified threshold t, once at least t dealers are qualified dist_key_share() returns a key share, whatever the other participants sent.", "quantifier": "every number of participants and threshold, every history of messages, including those of dishonest dealers", "why_tests_cant": "Tests run honest dealers; a dishonest dealer chooses which participant gets which deal and the degree of its polynomial.", "anchors": ["src/share/dkg/pedersen/dkg.rs: dist_key_share, dkg_key, threshold_certified, qual"]}
{"id": "C75", "title": "qualified_shares lists exactly the holders that answered and did not complain", "statement": "qualified_shares returns exactly the share holders that have a stored answer to the deal of every certified dealer and no complaint among them, whatever the iteration order of the maps; every listed holder approved every certified deal.", "quantifier": "every history of messages, every iteration order of the verifier map", "why_tests_cant": "Depends on adversarial messages and on the random iteration order of HashMap.", "anchors": ["src/share/dkg/pedersen/dkg.rs: qualified_shares, threshold_certified"]}
{"id": "C76", "title": "Responses counted for a dealer answer the deal of that dealer", "statement": "Once the deal of a dealer has been processed, every response stored for this dealer carries the session id of that deal, so that an answer to one dealer never counts for another.", "quantifier": "every history of messages in every order", "why_tests_cant": "Needs a response that is delivered under a wrong dealer number before the deal.", "anchors": ["src/share/dkg/pedersen/dkg.rs: process_response", "src/share/vss/pedersen/vss.rs: Aggregator::verify_response"]}
{"id": "C77", "title": "No message makes a participant of the DKG panic", "statement": "In every reachable state process_deal, process_response and process_justification return, with a value or an error, for every message.", "quantifier": "every history of messages, every message of every origin", "why_tests_cant": "The offending messages are malformed in one field and validly signed, or need a stored complaint.", "anchors": ["src/share/dkg/pedersen/dkg.rs: process_deal, process_response, process_justification", "src/share/vss/pedersen/vss.rs: decrypt_deal, verify_deal"]}
{"id": "C78", "title": "DKG: a refused resharing deal does not count", "statement": "When a participant answers a deal with a complaint, the deal is not used by this participant unless it is justified. (In a resharing the complaint about a wrong constant commitment is sent but not stored: the participant keeps its own approval, so the deal can become qualified.)", "quantifier": "every reachable state of every participant", "why_tests_cant": "Needs a malicious dealer and a particular interleaving.", "anchors": ["src/share/dkg/pedersen/dkg.rs: process_deal (reject)", "src/share/vss/pedersen/vss.rs: unsafe_set_response_dkg"]}
{"id": "C79", "title": "DKG: the reshared key does not depend on hash map order", "statement": "The key share that dist_key_share returns after a resharing is determined by the messages received. (If a qualified dealer's deal is missing the iteration stops silently at that dealer, so the result depends on the iteration order of a HashMap.)", "quantifier": "every reachable state, every pair of iteration orders", "why_tests_cant": "Iteration order is randomised per process; tests see one order.", "anchors": ["src/share/dkg/pedersen/dkg.rs: resharing_key, qual_iter"]}
{"id": "C80", "title": "Rabin DKG: finished means the key can be computed", "statement": "If finished() is true then dist_key_share() returns a share of the key.", "quantifier": "for every reachable state of a participant, every set of messages received, every map iteration order", "why_tests_cant": "The failure needs a dealer that signs a polynomial of another degree through the share of one participant; tests use honest dealers.", "anchors": ["src/share/dkg/rabin/dkg.rs:877-957", "src/share/dkg/rabin/dkg.rs:688-738"]}
{"id": "C81", "title": "Rabin DKG: finished is final", "statement": "A participant that has finished stays finished, whatever complaints, commitments and shares arrive, and a dealer whose commitments were dropped can be reconstructed.", "quantifier": "for every reachable state and every later message", "why_tests_cant": "Needs arbitrary sequences of complaints and reconstructions after the end of the protocol.", "anchors": ["src/share/dkg/rabin/dkg.rs:744-872", "src/share/dkg/rabin/dkg.rs:877-891"]}
{"id": "C82", "title": "Rabin DKG: a timeout lets a qualified dealer go on", "statement": "After set_timeout() a participant that is in its own qualified set can publish its secret commitments, although some participants never answered its deal.", "quantifier": "for every history of calls, every set of silent participants", "why_tests_cant": "Depends on which copy of the responses (dealer or verifier) each call changes, over all histories.", "anchors": ["src/share/dkg/rabin/dkg.rs:593-597", "src/share/dkg/rabin/dkg.rs:651-681"]}
{"id": "C83", "title": "Rabin DKG: signatures of the second phase are bound to the session", "statement": "A signed message of secret commitments, complaint or revealed share of one session is not accepted in another session of the same group.", "quantifier": "for all messages, sessions and states; hash without collisions", "why_tests_cant": "Says something about all pairs of sessions and about what the hash covers.", "anchors": ["src/share/dkg/rabin/dkg.rs:210-219", "src/share/dkg/rabin/dkg.rs:251-260", "src/share/dkg/rabin/dkg.rs:304-313"]}
{"id": "C84", "title": "Rabin DKG: a qualified deal has the approvals the threshold asks for", "statement": "The deal of every dealer in the qualified set has been approved by at least t participants, t being the threshold of the DKG.", "quantifier": "for every reachable state, every set of messages", "why_tests_cant": "The threshold that is compared comes from the message of the dealer; tests use the same one everywhere.", "anchors": ["src/share/dkg/rabin/dkg.rs:515-541", "src/share/vss/rabin/vss.rs:979-1004"]}
{"id": "C85", "title": "Rabin DKG: no message makes a participant panic", "statement": "Whatever deals, responses, justifications, commitments, complaints and shares arrive, each call returns a value or an error.", "quantifier": "for every reachable state and every message, signed or not", "why_tests_cant": "Malformed messages in all states; no finite set of tests covers them.", "anchors": ["src/share/dkg/rabin/dkg.rs:515-872", "src/share/vss/rabin/vss.rs:863-902"]}
{"id": "C86", "title": "A Schnorr signature made with edwards25519 is accepted, byte for byte", "statement": "schnorr::sign with any nonzero secret below the group order and any nonzero nonce gives 64 bytes that schnorr::verify accepts for the marshalled public key and the same message, with the real decoding of points and scalars in between.", "quantifier": "for every secret, nonce, message and hash function", "why_tests_cant": "The failing nonces are a handful out of 2^252; no random test will ever draw one.", "anchors": ["src/sign/schnorr/schnorr_sig.rs:25-141", "src/group/edwards25519/point.rs:286-338", "src/group/edwards25519/ge.rs:83-140"]}
{"id": "C87", "title": "EdDSA keys and signatures are those of RFC 8032", "statement": "For every 32-byte seed, EdDSA::new and EdDSA::sign compute the public key and the 64 signature bytes that RFC 8032 section 5.1.5 and 5.1.6 prescribe, so that other implementations accept them.", "quantifier": "for every seed, every message and every hash function with 64-byte output", "why_tests_cant": "Test vectors cover a few seeds; limb carries and recodings depend on the input.", "anchors": ["src/sign/eddsa/eddsa_sig.rs:25-156", "src/group/edwards25519/curve.rs:67-115"]}
{"id": "C88", "title": "EdDSA verification is that of RFC 8032", "statement": "eddsa::verify_with_checks accepts nothing that RFC 8032 section 5.1.7 refuses, and accepts every signature made as RFC 8032 prescribes.", "quantifier": "for every public key, message and signature as byte strings", "why_tests_cant": "Adversarial encodings, points outside the subgroup and extreme coordinates are never sampled.", "anchors": ["src/sign/eddsa/eddsa_sig.rs:159-219", "src/group/edwards25519/point.rs:286-338"]}
{"id": "C89", "title": "Schnorr and EdDSA verification accept the same signatures", "statement": "schnorr::verify on edwards25519 and eddsa::verify_with_checks agree on every public key, message and signature; a Schnorr signature with the nonce and secret of an EdDSA key is the EdDSA signature.", "quantifier": "for all byte strings", "why_tests_cant": "The two functions perform their checks in different order and on different representations; agreement on samples says nothing about odd encodings.", "anchors": ["src/sign/schnorr/schnorr_sig.rs:53-141", "src/sign/eddsa/eddsa_sig.rs:159-219"]}
{"id": "C90", "title": "An accepted EdDSA signature cannot be altered", "statement": "Two accepted signatures on the same message under the same key with the same first half are equal; key and commitment have exactly one accepted encoding, are not of small order, and the commitment lies in the prime order subgroup if the key does; verification never panics.", "quantifier": "for all byte strings", "why_tests_cant": "Malleability concerns strings an attacker constructs, not those a signer produces.", "anchors": ["src/sign/eddsa/eddsa_sig.rs:159-219", "src/sign/schnorr/schnorr_sig.rs:53-141"]}
{"id": "C91", "title": "The edwards25519 suite keeps what the generic protocol code relies on", "statement": "Marshalling points and scalars has fixed length and unmarshalling returns what was marshalled; a scalar has one canonical encoding; multiplication is additive and multiplicative in the scalar on multiples of the base point and additive in the point everywhere; signing and verifying with the generic Schnorr code over this suite is the byte-level computation.", "quantifier": "for all scalars, points, messages and hash functions", "why_tests_cant": "The generic code is tested with a few random keys; the contract concerns all encodings and all representations of a point.", "anchors": ["src/group/edwards25519/suite.rs:1-141", "src/group/edwards25519/point.rs:160-260", "src/group.rs:20-184"]}
{"id": "C92", "title": "On edwards25519, shares that pass the public check recover the committed secret", "statement": "If every share in a list is accepted by PubPoly::check against the same commitments, and the list has as many different indices as there are commitments, then recover_secret gives the discrete logarithm of the first commitment.", "quantifier": "for every list of commitments a dealer may publish, every list of shares, every iteration order", "why_tests_cant": "A cheating dealer chooses commitments with a component of small order; random commitments computed by an honest dealer have none.", "anchors": ["src/share/poly.rs:526-530", "src/share/poly.rs:244-300", "src/share/vss/pedersen/vss.rs:876-913", "src/group/edwards25519/point.rs:200-226"]}
{"id": "C93", "title": "Distributed keys and threshold signatures come out right on edwards25519", "statement": "On the curve itself, with its points of small order and the library's refusal of some encodings: when all participants follow the protocol, every one of them ends with the same distributed public key, which is what Point::mul computes from the secret that any t shares recover; and a threshold signature made with two such keys is, byte for byte, the EdDSA signature of that secret with the shared nonce, which RFC 8032 verification accepts.", "quantifier": "for all numbers of participants, thresholds, keys, polynomials, nonces, orders of delivery, and hash functions", "why_tests_cant": "Tests run a few participants with one order of delivery and random keys, so the points the library refuses never occur and scalar arithmetic is exercised at random values only.", "anchors": ["src/share/dkg/pedersen/dkg.rs:300-1240", "src/share/dkg/rabin/dkg.rs:250-760", "src/sign/dss/dss_sig.rs:160-330", "src/group/edwards25519/point.rs:90-260"]}
{"id": "C94", "title": "On edwards25519 a threshold signature made from checked partial signatures verifies", "statement": "If a signer's own shares fit the two distributed public keys and it has stored as many partial signatures as the threshold, each of which process_partial_sig checked, then signature() returns a signature that eddsa verification accepts under the distributed public key.", "quantifier": "for all distributed public keys (as a DKG with cheating dealers may leave them), messages, hash functions, sequences of received messages and iteration orders", "why_tests_cant": "Keys generated by honest test participants have no component of small order; with one the failure depends on the parity of the challenge, so it shows up for half of the messages only.", "anchors": ["src/sign/dss/dss_sig.rs:215-310", "src/group/edwards25519/point.rs:200-226", "src/sign/eddsa/eddsa_sig.rs:120-190"]}
{"id": "C95", "title": "On edwards25519 the shared secret of a Diffie-Hellman exchange depends on the private key", "statement": "Two parties with different private keys derive different shared points from the same received point, so that a ciphertext made by ECIES can be opened with the private key it was made for only.", "quantifier": "for every byte string that decodes to a point, all private keys, and all messages", "why_tests_cant": "Tests exchange points made from random keys, which are never of small order.", "anchors": ["src/dh/dh_impl.rs:74-80", "src/encrypt/ecies/ecies_impl.rs:16-79", "src/group/edwards25519/point.rs:286-310"]}
{"id": "C96", "title": "The variable time multiplication gives the product of the constant time one", "statement": "Setting the var_time flag of a point changes how long Point::mul takes, not what it returns; the sliding window recoding represents the scalar and never indexes out of its table.", "quantifier": "for all 32-byte scalars and all points", "why_tests_cant": "No test sets the flag on random inputs, and the two routines differ only for scalars with the top bit set.", "anchors": ["src/group/edwards25519/ge_mult_vartime.rs:11-82", "src/group/edwards25519/ge.rs:369-409", "src/group/edwards25519/point.rs:207-224"]}
{"id": "C97", "title": "The order on points is consistent with their equality", "statement": "Points that compare equal with == compare Equal with cmp, so that ordered collections hold a group element once; equal points have equal hashes.", "quantifier": "for all points in all projective representations", "why_tests_cant": "Equality compares encodings, the derived order compares limbs; a test sees the difference only if it takes the same group element by two computations.", "anchors": ["src/group/edwards25519/point.rs:22-27", "src/group/edwards25519/point.rs:229-249", "src/group/edwards25519/ge.rs:75-83"]}
{"id": "C98", "title": "Points read with serde behave like the points they compare equal to", "statement": "A point deserialised with serde is a point of the curve, and if it compares equal to another point, sums and products with the two compare equal.", "quantifier": "for every byte string that bincode deserialises to a point", "why_tests_cant": "Tests deserialise only what they serialised; the coordinates in a received message are chosen by the sender.", "anchors": ["src/group/edwards25519/point.rs:22-27", "src/encoding/encodings.rs:48-59", "src/group/edwards25519/ge.rs:75-83"]}
{"id": "C99", "title": "A generated private key keeps its meaning when stored and read back", "statement": "new_key_pair returns a private key that is a multiple of 8 with the matching public key of full order, fails only with the error of the random stream, and the private key read back from its encoding acts on every point as the generated one.", "quantifier": "for every random stream, every hash function with 64-byte output, every point of the curve", "why_tests_cant": "Tests compare the public keys of the two, which agree; the difference shows on points of small order only.", "anchors": ["src/util/key/key_pair.rs:42-68", "src/group/edwards25519/curve.rs:66-115", "src/group/edwards25519/scalar.rs:240-300"]}
{"id": "C100", "title": "An honest resharing hands the same key to the new group", "statement": "When all old and new nodes follow the protocol, every call of every node succeeds and produces the messages the others accept; once all deals and responses have arrived every node is certified, every new node gets its share of one new polynomial with matching commitments and the unchanged public key, any new threshold of shares recovers the old secret, and a node that leaves gets no share.", "quantifier": "for all numbers of old and new nodes, overlaps between the groups, thresholds, old polynomials, random choices, and all orders of arrival with timeouts and repeated calls of deals", "why_tests_cant": "The test suite runs a few group sizes with one order of messages; overlaps, orders and thresholds cannot be enumerated.", "anchors": ["src/share/dkg/pedersen/dkg.rs:466-510", "src/share/dkg/pedersen/dkg.rs:513-682", "src/share/dkg/pedersen/dkg.rs:731-760", "src/share/dkg/pedersen/dkg.rs:890-1060"]}
{"id": "C101", "title": "Binary form of every message: layout, and reading accepts exactly that", "statement": "marshal_binary of a deal, encrypted deal, response, justification, DKG message or key share writes the fields in the order of declaration, with lengths and usize in eight bytes little endian; unmarshal_binary returns a value for a byte string exactly when the string begins with the form of that value and the value's fields fit their widths. In particular what was written is read back, and no form is the beginning of another", "quantifier": "all values of all message types, all byte strings, all lengths", "why_tests_cant": "a test writes and reads a few values; that nothing else is accepted and that no two values share a form concerns all byte strings", "anchors": ["src/encoding/encodings.rs:49-59", "src/share/vss/pedersen/vss.rs:114-124", "src/share/vss/rabin/vss.rs:136-148", "src/share/dkg/pedersen/structs.rs:18-29", "src/share/dkg/rabin/dkg.rs:60-66"]}
{"id": "C102", "title": "A message has one binary form only", "statement": "Two different byte strings never decode to the same message, so that comparing or storing the bytes identifies the message", "quantifier": "all pairs of byte strings, all messages", "why_tests_cant": "a test compares a few forms; the claim is about all byte strings, also longer ones", "anchors": ["src/encoding/encodings.rs:53-59"]}
{"id": "C103", "title": "Messages that compare equal have the same binary form", "statement": "If two deals compare equal (==) then marshal_binary returns the same bytes for both, and two justifications that compare equal have the same signed hash", "quantifier": "all pairs of messages, all coordinates of the points in them", "why_tests_cant": "a test compares points that were computed in the same way; the claim is about all ways to compute a point", "anchors": ["src/group/edwards25519/point.rs:22-27", "src/share/vss/pedersen/vss.rs:163-167", "src/share/vss/pedersen/vss.rs:268-278"]}
{"id": "C104", "title": "A signed hash determines the message", "statement": "If the hash that is signed is the same for two responses, two justifications or two DKG deals, then the signed fields are the same, so that a signature cannot be moved to a message with other contents", "quantifier": "all pairs of messages, any hash without collisions", "why_tests_cant": "a test cannot go through all pairs of messages with the same hashed bytes", "anchors": ["src/share/vss/pedersen/vss.rs:223-231", "src/share/vss/pedersen/vss.rs:268-278", "src/share/vss/rabin/vss.rs:292-302", "src/share/dkg/pedersen/structs.rs:99-105"]}
{"id": "C105", "title": "A session id determines dealer, verifiers, commitments and threshold", "statement": "Two sessions with the same session id have the same dealer key, the same verifiers, the same commitments and the same threshold", "quantifier": "all sessions, any hash without collisions", "why_tests_cant": "collisions have to be excluded for all pairs of sessions", "anchors": ["src/share/vss/pedersen/vss.rs:1069-1091", "src/share/vss/rabin/vss.rs:1046-1067"]}
{"id": "C106", "title": "Honest DKGs on edwards25519 with deals in their binary form", "statement": "When the deals are sent as marshal_binary writes them (161 bytes per point, whatever coordinates the points have), honest participants of a Pedersen or Rabin DKG on edwards25519 finish with the same commitments and shares of one secret, in any order of the messages", "quantifier": "all numbers of participants up to 2^64, all thresholds, keys, polynomials, all orders of delivery, all choices of coordinates", "why_tests_cant": "a test runs one group in one order", "anchors": ["src/share/vss/pedersen/vss.rs:155-167", "src/share/vss/rabin/vss.rs:180-191", "src/encoding/encodings.rs:49-59"]}
{"id": "C107", "title": "Values written to a stream are read back in order", "statement": "Writing points, scalars and integers one after the other with marshal_to and then reading with unmarshal_from into receivers of the same kind gives the same values in the same order without an error, and leaves what follows them in the stream.", "quantifier": "all lists of values, all bytes that follow", "why_tests_cant": "Any number and mixture of values; the stream is shared by all of them.", "anchors": ["src/group/internal/marshalling/marshal.rs:7-46", "src/encoding/encodings.rs:12-27", "src/group/integer_field/integer.rs:232-302"]}
{"id": "C108", "title": "unmarshal_from an XOF picks a valid value", "statement": "As documented for Marshaling::unmarshal_from: given an XOF stream it yields a (uniformly chosen) valid element, whatever the stream gives, i.e. it never fails for points and always yields a reduced scalar.", "quantifier": "all XOF streams, all receivers", "why_tests_cant": "The failing streams are about half of all for points, but a test fixes one seed.", "anchors": ["src/encoding/encodings.rs:12-27", "src/group/internal/marshalling/marshal.rs:7-46", "src/group/edwards25519/point.rs:36-73", "src/group/edwards25519/scalar.rs:92-111,225-244"]}
{"id": "C109", "title": "An honest dealer is qualified whatever the others send", "statement": "In the Pedersen DKG a participant that has received the deal of an honest dealer and the approvals of at least a threshold of participants, and the dealer's justification for every complaint, has that dealer in its qualified set after the timeout, and the deal it uses is the one dealt. Messages about other dealers, forged messages, repetitions and the order of arrival make no difference.", "quantifier": "all groups, thresholds and numbers of participants, all histories of calls with arbitrary messages in between", "why_tests_cant": "The adversary chooses messages and their order; tests try a few orders.", "anchors": ["src/share/dkg/pedersen/dkg.rs:440-768", "src/share/vss/pedersen/vss.rs:600-1045"]}
{"id": "C110", "title": "A share is opened only after its holder complained about it", "statement": "A dealer's process_response returns a justification, that is publishes the plaintext deal of a share holder, exactly for the first answer of that holder if it is a complaint, names the dealer's session and is signed with the holder's key; the justification contains the deal of exactly that holder and the dealer's signature, and verifiers that know of the complaint accept it. The same holds for every participant of a DKG and for every old node of a resharing.", "quantifier": "all dealers, all histories of responses, deals, justifications and timeouts with arbitrary messages", "why_tests_cant": "The attacker chooses the responses and replays those of other runs; a test only tries a few.", "anchors": ["src/share/vss/pedersen/vss.rs:403-426", "src/share/vss/rabin/vss.rs:434-457", "src/share/dkg/pedersen/dkg.rs:604-682", "src/share/dkg/rabin/dkg.rs:548-575"]}
{"id": "C111", "title": "The hexadecimal text of a modular integer reads back", "statement": "For every Int a and receiver i, i.set_string(format!(\"{:x}\", a), \"\", 16) yields the value of a, and so does {:X}; the text determines the value.", "quantifier": "all integers, moduli, byte orders, both cases", "why_tests_cant": "Infinitely many values; tests print a few small positive ones.", "anchors": ["src/group/integer_field/integer.rs:192-208", "src/group/integer_field/integer.rs:304-318"]}
{"id": "C112", "title": "Integers given as text have the value of the numeral", "statement": "set_string and new_int_string, given a numeral in a base from 2 to 36, set the value to the number it stands for, reduced into 0..m-1; given a numerator and a denominator coprime to the modulus, to the number that multiplied with the denominator gives the numerator.", "quantifier": "all bases, numerals of any length in either case, all moduli from 2 on", "why_tests_cant": "Infinitely many numerals, bases and moduli; the tests use one fraction.", "anchors": ["src/group/integer_field/integer.rs:152-156", "src/group/integer_field/integer.rs:178-202"]}
{"id": "C113", "title": "Printed points and scalars identify and restore the object", "statement": "Two points print equally exactly when they are equal, and decoding the digits yields an equal point; two scalars print equally exactly when they are equal, decoding the digits yields the scalar, and the text is the hexadecimal form of the binary encoding.", "quantifier": "all points of the curve in every representation, all 32-byte scalars, both cases, with and without prefix", "why_tests_cant": "A point has many representations in memory and must print the same in all of them.", "anchors": ["src/group/edwards25519/point.rs:251-275", "src/group/edwards25519/scalar.rs:85-89", "src/group/edwards25519/scalar.rs:114-128"]}
{"id": "C114", "title": "Every share index has an evaluation point of its own, and it is never the secret", "statement": "For every usize index, private and public shares are evaluated at the same point that the reconstruction functions use for it; different indices have different points; no point is zero, so fewer than t shares, with whatever indices, are compatible with every secret, and reconstruction works for every set of t indices.", "quantifier": "all polynomials, all 2^64 indices, all sets of shares, all iteration orders", "why_tests_cant": "The interesting indices are near the wrap-around of the casts to i64; tests use indices below the number of participants.", "anchors": ["src/share/poly.rs:133-141", "src/share/poly.rs:283-311", "src/share/poly.rs:457-469", "src/share/poly.rs:534-562"]}
{"id": "C115", "title": "Jacobi symbols, machine words and comparisons of modular integers", "statement": "jacobi(a) is a modular integer that tells zero, squares and non-squares modulo an odd m apart; int64 and uint64 give the value whenever it is representable and its low bits otherwise; comparison is a total order on the values that agrees with equality.", "quantifier": "every modulus, every value, also out of range", "why_tests_cant": "Number theoretic claims over all moduli and arguments; the unit tests contain no call of jacobi on a composite modulus and never look at its encoding.", "anchors": ["src/group/integer_field/integer.rs: jacobi, int64, uint64, cmpr, Ord, PartialEq"]}
{"id": "C116", "title": "A random distributed key signs only one message", "statement": "The random distributed key of a distributed signature is used only once: a node that issued a partial signature with it does not issue one for another message, and a partial signature for one message never enters the session for another.", "quantifier": "all sessions, keys, messages, call sequences", "why_tests_cant": "The damage of reuse is algebraic (two equations in two unknowns) and needs two sessions with the same keys, which no test runs.", "anchors": ["src/sign/dss/dss_sig.rs: new_dss, partial_sig, process_partial_sig, session_id, DSS.msg"]}
{"id": "C117", "title": "Printing an object does not print its secrets", "statement": "The Debug and Display texts of shares, polynomials, key pairs, deals, justifications, aggregators, dealers, verifiers, key shares, configurations, generators, distributed-signature sessions, partial signatures and EdDSA keys depend on the public part of the object only: two objects that differ in secret scalars alone print the same text.", "quantifier": "all objects of each type, all scalars, groups and text forms of points", "why_tests_cant": "Independence from a secret compares two objects for every pair of secrets; a test looks at one text and searches it for one encoding of one secret.", "anchors": ["src/share/poly.rs: Debug/Display for PriShare, PriPoly, PriPoly::string", "src/share/vss/pedersen/vss.rs, src/share/vss/rabin/vss.rs: Debug/Display", "src/share/dkg/pedersen/dkg.rs, structs.rs, src/share/dkg/rabin/dkg.rs: Debug/Display", "src/sign/dss/dss_sig.rs: Debug/Display", "src/sign/eddsa/eddsa_sig.rs: derive(Debug)"]}
{"id": "C118", "title": "Saved state reads back", "statement": "The objects that hold the state of a protocol (private and public polynomials, dealers and verifiers of both VSS, configurations and generators of both DKG, distributed-signature sessions), written with marshal_binary and read with unmarshal_binary, come back the same: every field equal, every map with the same keys and values.", "quantifier": "all objects whose numbers and lengths fit their fields, all encodings of scalars and points that read back, every order in which hash maps are visited", "why_tests_cant": "The order of hash maps changes with each process; a field left out or read in another order than written shows only in states where it matters.", "anchors": ["src/encoding/encodings.rs: marshal_binary, unmarshal_binary", "src/share/poly.rs: derive(Serialize, Deserialize)", "src/share/vss/pedersen/vss.rs, src/share/vss/rabin/vss.rs: derive(Serialize, Deserialize)", "src/share/dkg/pedersen/dkg.rs, src/share/dkg/rabin/dkg.rs: derive(Serialize, Deserialize)", "src/sign/dss/dss_sig.rs: derive(Serialize, Deserialize)"]}
{"id": "C119", "title": "Every participant is dealt to exactly once", "statement": "Whenever deals() of a distributed key generation succeeds, in whatever state, it returns one deal for each participant of the new group except the dealer itself (which in a resharing gets its own deal the same way as the others), under the dealer's index and its signature, and the addressee opens it to the dealer's plaintext_deal for it. expected_deals() is the number of deals that the other dealers make for this participant.", "quantifier": "all group sizes, lists of old and new nodes, thresholds, random choices, all sequences of calls before, both DKGs", "why_tests_cant": "Tests run one list of nodes; a deal under a wrong index or missing for one participant, or a count that is off by one for nodes that stay or join, shows only for particular lists.", "anchors": ["src/share/dkg/pedersen/dkg.rs: deals, expected_deals", "src/share/dkg/rabin/dkg.rs: deals", "src/share/vss/pedersen/vss.rs: plaintext_deal, encrypted_deals, decrypt_deal", "src/share/vss/rabin/vss.rs: plaintext_deal, encrypted_deals, decrypt_deal"]}
{"id": "C120", "title": "A correct dealer of the Rabin generation is qualified whatever the others send", "statement": "In the Rabin key generation, if a dealer is correct, its deal reaches a participant, and at least a threshold of participants (counting dealer and receiver) approve it before that participant's timeout, then the dealer is in the qualified set of that participant from the timeout on (or as soon as everybody has answered), and the share counted is the one that was dealt, whatever the remaining participants and outsiders send: complaints, justifications, deals in the dealer's name, late protocol messages. Nobody but the dealer can have it disqualified.", "quantifier": "all group sizes, thresholds, honest sets, all interleavings of all messages, also forged ones", "why_tests_cant": "Tests run the protocol with everybody honest or with one scripted fault; robustness is a statement about all adversarial histories.", "anchors": ["src/share/dkg/rabin/dkg.rs: process_deal, process_response, process_justification, set_timeout, qual", "src/share/vss/rabin/vss.rs: verify_justification, verify_deal, deal_certified"]}
{"id": "C121", "title": "Shares of different periods do not combine", "statement": "Renewing (DistKeyShare::renew) or resharing makes shares stolen earlier useless: whoever sees in every period the shares of fewer than t holders, in each period of other holders and over any number of renewals, can exclude no secret; for every secret there are a first polynomial and renewal polynomials, with all renewals accepted, that give exactly the shares seen, and exactly one choice of them if t-1 shares are seen in each period. The same for a resharing: the shares and all randomness of fewer than t old holders together with what fewer than t' new holders receive from every old holder are compatible with every secret.", "quantifier": "all thresholds, numbers of periods, sets of holders below the threshold, observed values, candidate secrets", "why_tests_cant": "Secrecy is a statement about all polynomials that explain an observation; a test sees one run.", "anchors": ["src/share/dkg/pedersen/dkg.rs: renew", "src/share/vss/pedersen/vss.rs: new_dealer", "src/share/poly.rs: eval"]}
{"id": "C122", "title": "What the constructors accept", "statement": "new_dealer and new_verifier of both secret sharings, new_dist_key_generator, new_dist_key_handler and new_dss never panic; they succeed exactly for the documented parameters (own public key listed; 2 <= threshold <= number of participants for whoever deals; old nodes and old threshold given when resharing) and otherwise return the error that names the violated condition. The index is the first place where the own key is listed.", "quantifier": "all lists of keys, thresholds, configurations, randomness", "why_tests_cant": "The accepted set is an infinite set of configurations; tests try a handful.", "anchors": ["src/share/vss/pedersen/vss.rs: new_dealer, new_verifier, valid_t, minimum_t", "src/share/vss/rabin/vss.rs: new_dealer, new_verifier", "src/share/dkg/pedersen/dkg.rs: new_dist_key_handler, new_dist_key_generator, init_verifiers", "src/share/dkg/rabin/dkg.rs: new_dist_key_generator", "src/sign/dss/dss_sig.rs: new_dss"]}
{"id": "C123", "title": "Participants that finish agree on the key", "statement": "In both key generations, when fewer than t participants are faulty and the others follow the protocol over a reliable, totally ordered broadcast channel, any two of them that obtain a distributed key obtain the same public key; in particular they agree on which dealers are qualified.", "quantifier": "all groups, thresholds, sets of faulty participants, messages of these, histories of calls", "why_tests_cant": "The faulty participants may send anything; tests run a few cooperative groups.", "anchors": ["src/share/dkg/rabin/dkg.rs: process_deal, process_response, process_justification, set_timeout, qual, dist_key_share", "src/share/dkg/pedersen/dkg.rs: process_deal, process_response, process_justification, set_timeout, qual, dist_key_share", "src/share/vss/rabin/vss.rs: verify_response, verify_justification, clean_verifiers, deal_certified", "src/share/vss/pedersen/vss.rs: verify_response, verify_justification, deal_certified"]}
{"id": "C124", "title": "Data encrypted to a shared key is decrypted by any t holders of shares", "statement": "As src/examples shows it: data embedded in a point and encrypted with ElGamal to a public key is recovered with the private key; encrypted to the key of a DKG, it is recovered from the partial decryptions of any t holders of shares with recover_commit, or re-encrypted to a client who opens it. For every pair of points received as ciphertext, any t holders obtain what the holder of the shared secret would.", "quantifier": "all messages, keys, ephemeral scalars, random streams, thresholds, selections of shares, orders of hash map iteration, pairs of points", "why_tests_cant": "The tests encrypt two fixed short messages and decrypt with all n shares where the threshold is n; ciphertexts off the subgroup are not tried.", "anchors": ["src/examples/enc_test.rs: el_gamal_encrypt, el_gamal_decrypt", "src/examples/dkg_test.rs: variants A, B and C", "src/share/poly.rs: recover_commit", "src/group/edwards25519/point.rs: embed, data, mul, sub"]}
{"id": "C125", "title": "Verification returns in every build, also with overflow checks", "statement": "Schnorr and EdDSA verification return a result for every public key, message and signature, whether or not the build checks machine arithmetic for overflow. (The profile that turns the checks off holds for this crate only: Cargo ignores profiles of dependencies, so a debug build of another crate that uses this one has the checks.) is_canonical and has_small_order answer alike in both builds.", "quantifier": "all byte strings as public key, message and signature, all hash functions, all points", "why_tests_cant": "The crate's own tests run in its own profile, where the subtractions wrap; the checked arithmetic only exists in builds of other crates.", "anchors": ["Cargo.toml: [profile.dev]", "src/group/edwards25519/point.rs: has_small_order, is_canonical", "src/group/edwards25519/scalar.rs: is_canonical", "src/sign/schnorr/schnorr_sig.rs: verify_with_checks", "src/sign/eddsa/eddsa_sig.rs: verify_with_checks"]}
{"id": "C126", "title": "On edwards25519, t neighbouring holders vouch for the public key", "statement": "If shares at t neighbouring indices (t the number of commitments) pass PubPoly::check on edwards25519, recover_secret gives a secret whose public key is exactly the first commitment, and every public share lies in the prime order subgroup, whatever points the dealer sent. The same holds for indices a, a+d, a+2d, ... when gcd(d,8) divides a+1. For two holders this condition is exact: otherwise a dealer can shift any commitments by points of small order so that both accept and no secret belongs to the first commitment.", "quantifier": "all lists of commitments, all shares, all indices below the group order minus one, all iteration orders", "why_tests_cant": "The cofactor only matters for commitments outside the subgroup; which sets of holders notice depends on number theory of their indices, not on any sample.", "anchors": ["src/share/poly.rs: PubPoly::eval, check, recover_secret", "src/group/edwards25519/point.rs: mul, add, eq"]}
{"id": "C127", "title": "Participants certified by everybody hold shares of one key, whatever a dealer who is not caught sent", "statement": "In a Pedersen DKG in which the participants of a set H follow the protocol and every other dealer sends deals that pass the checks at each participant of H (any threshold, any commitments, any shares), with the approval of everybody: every call at participants of H succeeds, all of them are certified, get a key, agree on the commitments, and any t of them recover the private key of the distributed key in a group of prime order.", "quantifier": "all groups and environments, all sizes, all sets H, all convincing dealers, all orders of messages and timeouts", "why_tests_cant": "Tests run dealers that follow the protocol or send shares that fail; the choices of a dealer that stays below the checks are unbounded.", "anchors": ["src/share/dkg/pedersen/dkg.rs: process_deal, process_response, certified, dist_key_share, dkg_key", "src/share/vss/pedersen/vss.rs: verify_deal, process_encrypted_deal"]}
{"id": "C128", "title": "On edwards25519, enough participants of a finished DKG hold the private key", "statement": "Participants who finished a Pedersen DKG on edwards25519 with the approval of everybody recover, from as many shares as there are commitments, the private key of the distributed key, whatever the other dealers did.", "quantifier": "all sets of participants, all dealers that pass the checks, all orders of messages, all selections", "why_tests_cant": "A dealer needs points outside the subgroup; whether the check catches them depends on the indices of the participants.", "anchors": ["src/share/dkg/pedersen/dkg.rs: process_deal, dist_key_share", "src/share/vss/pedersen/vss.rs: verify_deal", "src/share/poly.rs: PubPoly::check, recover_secret", "src/group/edwards25519/point.rs: mul"]}
{"id": "C129", "title": "Silent participants do not keep the others from a common key after a timeout", "statement": "Some participants of a Pedersen DKG never send anything. At each of the others (a set A) all messages of A arrive, in any order, with set_timeout called at any point. If the constructor was given a threshold t and A has at least t members, each member is threshold-certified with exactly A as qualified set, and dist_key_share gives, for every iteration order, the commitments of the sum of the polynomials of A and the share of it at the own index; any t of the shares recover the sum of the secrets of A. With fewer than t members, without the timeout, or without a threshold given to the constructor nobody gets a key. For any part of the messages whatever, a dealer is qualified exactly when at least t (with a timeout) or all (without) participants are known to have approved its deal.", "quantifier": "all sizes, all sets of silent participants, all orders of messages, all positions of the timeout, all groups and environments satisfying the laws", "why_tests_cant": "Which messages arrive before and after the timeout can be arranged in unboundedly many ways; tests run one.", "anchors": ["src/share/dkg/pedersen/dkg.rs: set_timeout, process_deal, process_response, threshold_certified, qual, dist_key_share", "src/share/vss/pedersen/vss.rs: Aggregator::deal_certified, set_timeout"]}
{"id": "C130", "title": "A signature accepted under a key was made with its private key, with one nonce", "statement": "Under the public key of a private key x on edwards25519, schnorr::verify (and EdDSA verification) accept exactly the byte strings that schnorr::sign produces with x and some usable nonce; the nonce is determined by the signature, so nobody can produce an accepted signature the key holder could not, and different nonces give different signatures. Each message has exactly as many accepted signatures as there are usable nonces, at least the group order minus 435. A signature accepted for one message is accepted for another exactly when the two hashes are congruent modulo the group order.", "quantifier": "all hash functions, all private keys below 2^255, all messages, all byte strings as signature", "why_tests_cant": "There are 2^512 candidate signatures for each key and message; tests try a handful of altered ones.", "anchors": ["src/sign/schnorr/schnorr_sig.rs: sign, verify, verify_with_checks", "src/sign/eddsa/eddsa_sig.rs: verify_with_checks", "src/group/edwards25519/point.rs, scalar.rs"]}
{"id": "C131", "title": "A stored EdDSA private key is read back as it was, and a damaged one is refused", "statement": "On edwards25519: EdDSA::new makes the RFC 8032 key of the 32 bytes it draws; marshal_binary writes the seed and the RFC 8032 public key, unmarshal_binary of these bytes gives the same key, and reading a stored key succeeds only on bytes that marshal_binary would write. (The second half is not looked at: every 64 bytes are read, and a stored public key that does not belong to the seed is silently replaced. marshal_binary panics for a key converted from a Pair.)", "quantifier": "all hash functions with 64 bytes of output, all streams, all byte strings, all receivers", "why_tests_cant": "Tests store and read back a few generated keys and never a key with a wrong second half.", "anchors": ["src/sign/eddsa/eddsa_sig.rs: new, marshal_binary, unmarshal_binary, eq, From<Pair>", "src/group/edwards25519/curve.rs: new_key_and_seed"]}
{"id": "C132", "title": "Before the commitments are revealed, fewer than t participants of the Rabin key generation can still end up with any key", "statement": "In an honest Rabin key generation let fewer than t participants put together everything they received, including answers to complaints they make, up to the moment a participant j outside the coalition reveals its commitments. For every value a there is a run in which only j drew other random values, which looks exactly the same to every member of the coalition (the same deals byte for byte, the same responses, the same states after any sequence of messages, the same final shares), and which ends with the key a*B at every participant.", "quantifier": "all numbers of participants, thresholds, honest random choices, coalitions of fewer than t participants, participants j outside, target values and message sequences without the commitments of j, provided the second base is a non-zero multiple of the base", "why_tests_cant": "No test can show that something is not revealed; the runs that would have to be compared differ in every random value.", "anchors": ["src/share/dkg/rabin/dkg.rs: DistKeyGenerator::deals, process_deal, process_response, process_justification, secret_commits", "src/share/vss/rabin/vss.rs: Dealer::new, encrypted_deal, process_response"]}
{"id": "C133", "title": "No participant of the Pedersen key generation can choose properties of the key", "statement": "Whatever a participant computes from the deals it was sent before it draws its own secret, it cannot make sure that the generated key has a property fixed beforehand. (It can: each deal carries the public key of the dealer's secret, so the participant that deals last knows the key for each choice of its own secret and can try secrets until the key suits it. What holds: as long as the others choose without knowing the deal of a participant, the secret of this participant can still lead to every key.)", "quantifier": "all suites, numbers of participants, honest choices of the others, strategies of one participant, properties of keys, complete message orders", "why_tests_cant": "Tests run all participants with independent random values and look at one key.", "anchors": ["src/share/dkg/pedersen/dkg.rs: new_dist_key_generator, deals, process_deal, dist_key_share", "src/share/vss/pedersen/vss.rs: decrypt_deal, Deal::commitments"]}
{"id": "C134", "title": "What fewer than t parties see is equally likely for every secret", "statement": "Count the random draws of a sharing. For plain sharing, for a Rabin dealer and for one participant j of an honest Rabin key generation: whatever fewer than t parties see (shares; session, aggregator and deals; everything up to the commitments of j), as many draws lead to it with one secret as with any other. In the key generation, among the draws of j that look the same to the coalition, every value of the distributed secret comes out equally often. So with uniform draws the view of the coalition says nothing about the secret.", "quantifier": "all thresholds, numbers of parties, coalitions of fewer than t, secrets, observed values and draws, provided the second base is a non-zero multiple of the base", "why_tests_cant": "A statement on how often each view arises among all draws; for the real field there are about 2^252 draws per coefficient.", "anchors": ["src/share/poly.rs: new_pri_poly, PriPoly::eval", "src/share/vss/rabin/vss.rs: Dealer::new", "src/share/dkg/rabin/dkg.rs: DistKeyGenerator::new"]}
{"id": "C135", "title": "A qualified dealer cannot stop the Rabin key generation by what it reveals", "statement": "Once a dealer is qualified, the correct participants, who are enough for the threshold, can go on until all of them finish and have a key, also if the dealer reveals wrong commitments or none at all. (They cannot: process_complaint_commits refuses complaints about a dealer whose commitments are not stored, and no other message starts a reconstruction. If no commitments of a qualified dealer are revealed, no call of a correct participant and no message of fewer than t faulty ones makes a correct participant finish. If the revealed commitments are wrong, only participants whose share happens to agree with them answer a complaint; these are fewer than t, so without help of faulty participants the others never finish.)", "quantifier": "all suites, numbers of participants, thresholds, sets of correct participants, sequences of public messages and calls, map orders", "why_tests_cant": "Tests withhold nothing: every dealer reveals, and the one reconstruction test hands over the messages of participants that stored the commitments before.", "anchors": ["src/share/dkg/rabin/dkg.rs: process_secret_commits, process_complaint_commits, process_reconstruct_commits, finished, dist_key_share"]}
{"id": "C136", "title": "Silent participants do not keep the others of the Rabin key generation from a key after a timeout", "statement": "Fewer than t participants say nothing, the others are at least t, follow the protocol over a reliable broadcast channel and call set_timeout. Then they can finish. (They cannot: set_timeout reaches the verifiers but not the own dealer, secret_commits asks for the own deal to be certified, and this needs an answer of everybody. If one participant answers no deal of a correct dealer, then no correct participant ever reveals its commitments, finishes or gets a key, whatever the faulty ones send and whether or not the timeout is set, although the correct dealers are qualified everywhere after it.)", "quantifier": "all suites, numbers of participants, thresholds, sets of correct participants, sequences of public messages and calls, map orders", "why_tests_cant": "Tests let every participant answer every deal; the one test of set_timeout looks at the qualified set of one participant and ends there.", "anchors": ["src/share/dkg/rabin/dkg.rs: set_timeout, secret_commits, finished, dist_key_share", "src/share/vss/rabin/vss.rs: Dealer::set_timeout, deal_certified"]}
{"id": "C137", "title": "Enough correct participants always get the distributed signature", "statement": "A participant of a signing session that has been handed the partial signatures of at least t correct participants (its own counts once it has called partial_sig) gets the signature from signature, whatever else was delivered to it before, in between and after, and in whatever order: wrong, replayed or forged messages cannot take the place of a correct one or make the result wrong. With keys and nonces generated by two Pedersen key generations the result is the EdDSA signature under the generated key.", "quantifier": "all suites, numbers of participants, thresholds, call sequences with arbitrary messages, map iteration orders; on edwards25519 all key generations among correct participants and orders of their messages", "why_tests_cant": "Tests deliver correct partial signatures only, or one wrong message alone; they do not mix adversarial messages into a session at every position.", "anchors": ["src/sign/dss/dss_sig.rs: new_dss, partial_sig, process_partial_sig, enough_partial_sig, signature", "src/share/dkg/pedersen/dkg.rs: dist_key_share"]}
{"id": "C138", "title": "Correct participants of a key generation that report success hold the same key", "statement": "All participants follow the protocol and the messages between them are only delayed, none is lost or changed. Two participants of the Rabin generation that report finished(), or two of the Pedersen generation for which dist_key_share() succeeds, each after the part of the messages that has reached it so far, hold the same public commitments. (They need not: both functions are satisfied with t qualified dealers, so who asks before everything has arrived gets the sum over the dealers it has heard of. The theorems give the exact key at every point of such a run, and for the Pedersen generation that certified() becomes true only when everything has arrived, so that participants that wait for it agree.)", "quantifier": "all suites, numbers of participants, thresholds, secrets and draws, all partial orders of arrival, map orders", "why_tests_cant": "Tests deliver all messages before they ask for a key.", "anchors": ["src/share/dkg/rabin/dkg.rs: finished, qual, dist_key_share", "src/share/dkg/pedersen/dkg.rs: threshold_certified, certified, qual, dist_key_share"]}
{"id": "C139", "title": "All exported scalar types of edwards25519 compute modulo the group order", "statement": "The crate exports three types that implement the trait Scalar for edwards25519: Scalar, SimpleCTScalar and FactoredScalar. For each of them a + b, a * b and self.sub(a, b) are the sum, the product and the difference a - b modulo the order, for all values and receivers. (Scalar: yes. SimpleCTScalar: sums and products yes, but sub(a, b) returns b - a. FactoredScalar: the limbs are computed and never stored, so every sum and every product is zero and a difference is the receiver; even if the limbs were stored the reduction would not always end below the order.)", "quantifier": "all 32-byte values, receivers, the three types", "why_tests_cant": "The one test of the two types checks that 2 * s equals s + s for a random s. FactoredScalar passes it with 0 == 0, and subtraction is not tested.", "anchors": ["src/group/edwards25519/scalar_test_types.rs: SimpleCTScalar, FactoredScalar, sc_add_fact, sc_mul_fact, sc_sub_fact, sc_reduce_limbs", "src/group/edwards25519/mod.rs: exports", "src/group.rs: trait Scalar"]}
{"id": "C140", "title": "Every exported scalar type has one binary form", "statement": "For Scalar, SimpleCTScalar and FactoredScalar, marshal_to writes the bytes that marshal_binary returns, and unmarshal_binary accepts exactly 32 bytes. (Scalar: yes. The two others: marshal_binary writes the bytes as they are while marshal_to writes the residue, which agree exactly for values below the order; unmarshal_binary accepts everything of at least 32 bytes and ignores what follows.)", "quantifier": "all 32-byte values, all byte strings, the three types", "why_tests_cant": "No test writes or reads values of the two types.", "anchors": ["src/group/edwards25519/scalar_test_types.rs: Marshaling, BinaryMarshaler, BinaryUnmarshaler", "src/encoding/encodings.rs: marshal_binary, unmarshal_binary"]}
{"id": "C141", "title": "A modular integer read with serde is in its documented range", "statement": "Whatever bytes encoding::unmarshal_binary (serde, bincode) reads as an Int, the value lies in 0 through m - 1, as the documentation of the field v says and as Int's own unmarshal_binary checks. (It does not: the derived Deserialize checks nothing. Writing and reading give back value, modulus and byte order, so an integer in range stays in range; but bytes can also be read as a value out of range, which sums and products do not always bring back into it, as a value for which marshal_binary panics, and as an integer with modulus zero, with which every sum, product and difference panics.)", "quantifier": "all byte strings, all values, moduli and byte orders", "why_tests_cant": "The tests read back what they wrote from reduced values; no test feeds other bytes.", "anchors": ["src/group/integer_field/integer.rs: ByteOrder, Int (derive Serialize, Deserialize), marshal_binary, Add, Mul, sub", "src/encoding/encodings.rs: marshal_binary, unmarshal_binary"]}
{"id": "C142", "title": "A resharing survives silent old and new nodes up to the thresholds", "statement": "In a resharing with the Pedersen DKG in which some old nodes never deal and some new nodes never answer, a new node that takes part gets a key exactly if (after set_timeout) at least threshold new nodes take part, or without a timeout all of them, and the old nodes that dealt number at least old_threshold and the number of old public coefficients. The key then has the commitments of one polynomial, the same for every such node, its share is the value of that polynomial, the qualified set is exactly the old nodes that dealt, the public key is unchanged, and any threshold of the new shares recover the old secret.", "quantifier": "all groups, numbers of old and new nodes, thresholds other than zero (or no timeout), sets of silent old and new nodes, orders of arrival and hash map orders; no message is a complaint", "why_tests_cant": "Tests fix one small network and one silent pattern.", "anchors": ["src/share/dkg/pedersen/dkg.rs: process_deal, process_response, set_timeout, qual, threshold_certified, dist_key_share, resharing_key", "src/share/vss/pedersen/vss.rs: deal_certified"]}
{"id": "C143", "title": "A key stays the same through any number of resharings, also on edwards25519", "statement": "However often a distributed key is reshared with the Pedersen DKG, each time with a new group, new thresholds and possibly silent old and new nodes, all current holders hold shares of one polynomial, every holder's public key is the first public key, and any threshold of the current shares recover the secret that the first holders shared. In particular for a key generated and reshared on edwards25519 with deals in their binary form.", "quantifier": "all suites that keep the contract of group.rs, in particular edwards25519; any number of resharings, groups, thresholds, sets of silent nodes, orders of arrival, hash map orders; no message is a complaint", "why_tests_cant": "Tests reshare once or twice in a fixed group.", "anchors": ["src/share/dkg/pedersen/dkg.rs: new_dist_key_handler, process_deal, process_response, dist_key_share, resharing_key", "src/group/edwards25519/point.rs"]}
{"id": "C144", "title": "The group keeps signing under the first public key after any number of resharings", "statement": "After any number of resharings with the Pedersen DKG, the current holders can sign with DSS: each opens a session with its newest key share and a share of a nonce with the same threshold, and whichever messages arrive in whichever order, a holder that is handed the partial signatures of a threshold of correct holders gets the signature of the first secret. On edwards25519 it is, byte for byte, an EdDSA signature that RFC 8032 accepts under the first public key.", "quantifier": "all suites that keep the contract of group.rs, in particular edwards25519; any number of resharings, groups, thresholds, subsets of correct holders, further messages, hash map orders", "why_tests_cant": "Tests sign with keys straight from a key generation, never with reshared ones.", "anchors": ["src/sign/dss/dss_sig.rs: new_dss, partial_sig, process_partial_sig, signature", "src/share/dkg/pedersen/dkg.rs: resharing_key", "src/sign/eddsa/eddsa_sig.rs: verify"]}
{"id": "C145", "title": "Resharing keeps the secret from an adversary that moves", "statement": "An adversary that sees the shares of fewer than the threshold of holders in each period, and in each resharing what these draw and all shares dealt to the fewer than the threshold of new holders that it sees next, learns nothing about the secret from them: as many draws of all dealers in all resharings lead to what it sees with one secret as with any other. The bound is sharp: once it sees a threshold of holders in one period, what it sees determines the secret. Public commitments are left out (they determine the secret), and so is what the encryption of the deals gives away.", "quantifier": "all fields, any number of resharings, all thresholds, sets of dealers and coalitions below the threshold in each period, everything that can be seen", "why_tests_cant": "Secrecy is about all draws at once; a test sees one.", "anchors": ["src/share/dkg/pedersen/dkg.rs: new_dist_key_handler, resharing_key", "src/share/vss/pedersen/vss.rs: new_dealer", "src/share/poly.rs: new_pri_poly, eval"]}
{"id": "C146", "title": "The commitments give away nothing but the public key", "statement": "What fewer than the threshold of verifiers get from a Pedersen dealer, the session id and the public commitments included, can be made by a simulator that knows only the public key of the secret and draws uniform scalars for the shares: whatever they can get, as many draws of the dealer lead to it as draws of the simulator. The same holds for an honest key generation, where the simulator knows the distributed public key and what the coalition knows anyway, and for any number of resharings: as many draws lead to what an adversary sees, all commitments included, as when the secret is any other one and the commitments come from the simulator.", "quantifier": "all groups that keep the contract of group.rs, in particular edwards25519; all thresholds from 2, all coalitions of one less than the threshold and the smaller ones inside them, all public keys, secrets and draws", "why_tests_cant": "A statement about all draws and about a party that does not exist in the code; a test sees one run.", "anchors": ["src/share/vss/pedersen/vss.rs: new_dealer", "src/share/poly.rs: new_pri_poly, eval, commit", "src/share/dkg/pedersen/dkg.rs: new_dist_key_handler, resharing_key"]}
{"id": "C147", "title": "Threshold signing gives away nothing but the signatures", "statement": "Fewer than the threshold of holders learn nothing from any number of DSS sessions under one key but the signatures: their shares of the key and of the random keys, the commitments and the partial signatures of all participants can be made by a simulator that knows the public key and the finished signatures (R, s) and draws uniform scalars for the shares. Whatever they can get, as many draws of the polynomials lead to it as draws of the simulator. Each session needs a random key of its own (C116). The keys with which the participants sign their messages are not part of the secret; the simulator may use them.", "quantifier": "all groups that keep the contract of group.rs, in particular edwards25519; all thresholds from 2, coalitions of one less than the threshold and the smaller ones inside them, any number of sessions and messages, all participant lists, keys and draws", "why_tests_cant": "A statement about all draws and about a party that does not exist in the code; a test sees one run and only checks that the signature verifies.", "anchors": ["src/sign/dss/dss_sig.rs: new_dss, partial_sig, hash_sig, session_id", "src/share/poly.rs: eval, commit"]}
{"id": "C148", "title": "The hashes of shares and of signing sessions determine what was hashed", "statement": "Two private or two public shares with the same hash are the same share, and two DSS sessions with the same identifier have the same long-term key and the same random key, unless the hash collides on these inputs. Violated: the index is cut to 32 bits, and the identifier does not tell where the commitments of the long-term key end.", "quantifier": "all suites that keep the contract of group.rs, all shares, indices, keys and partial signatures", "why_tests_cant": "Tests hash a few small shares and sessions of one threshold; the claim is about all pairs.", "anchors": ["src/share/poly.rs: PriShare::hash, PubShare::hash", "src/sign/dss/dss_sig.rs: PartialSig::hash, session_id, process_partial_sig"]}
{"id": "C149", "title": "ECIES decrypts exactly what it encrypts", "statement": "ecies::decrypt(x, c) returns Ok(m) for exactly those ciphertexts c that ecies::encrypt(x*B, m) returns for some ephemeral scalar; no other form of a ciphertext opens. Violated on edwards25519: any accepted encoding of any point, also one of small or mixed order, begins a ciphertext that opens, and a ciphertext whose ephemeral point has a second encoding can be changed by anybody without changing what it opens to.", "quantifier": "all private keys, ciphertexts and messages; all ciphers of which decryption accepts only what encryption returns, as AES-GCM", "why_tests_cant": "Tests encrypt and decrypt a few messages and flip a few bytes; the claim is about all byte strings, of which the offending ones are a negligible part.", "anchors": ["src/encrypt/ecies/ecies_impl.rs: encrypt, decrypt, derive_key", "src/dh/dh_impl.rs: AEAD::new, seal, open", "src/group/edwards25519/point.rs: unmarshal_binary"]}
{"id": "C150", "title": "With t participants left the group still generates its key and signs", "statement": "If in the generation of the long-term key and in that of the nonce all participants outside some set are silent from the start and the others, at least t, exchange their messages in any order and set a timeout, then every participant in both sets opens a signing session, and whoever of them is handed the partial signatures of t of them, among any other messages, returns the EdDSA signature of the message under the generated key, which RFC 8032 verification accepts.", "quantifier": "all numbers of participants, thresholds, sets of silent participants (different in the two generations), orders of messages, junk among the partial signatures; on edwards25519 with deals in their binary form", "why_tests_cant": "Tests run a generation with everybody present; the claim is about all sets of absent participants and all orders of messages through three protocols.", "anchors": ["src/share/dkg/pedersen/dkg.rs: new_dist_key_generator, deals, process_deal, process_response, set_timeout, dist_key_share", "src/sign/dss/dss_sig.rs: new_dss, partial_sig, process_partial_sig, signature", "src/sign/eddsa/eddsa_sig.rs: verify"]}
{"id": "C151", "title": "A share that passes the public check is the committed share", "statement": "On edwards25519, if the check of a share against the commitments to a polynomial (PubPoly::check, verify_deal of both VSS schemes) succeeds, the 32 bytes the share is stored in are, modulo the group order, the value of that polynomial; and a share of a distributed key computed from deals that were all approved fits the commitments computed from them.", "quantifier": "all polynomials, indices and 32-byte strings, reduced or not; all numbers of deals", "why_tests_cant": "Tests use shares that the library computed, which are reduced; a share read from a message holds whatever bytes the dealer sent.", "anchors": ["src/share/poly.rs:457-469, 526-530", "src/share/vss/pedersen/vss.rs:876-913", "src/share/vss/rabin/vss.rs:863-902", "src/share/dkg/pedersen/dkg.rs:905-954", "src/group/edwards25519/scalar.rs:23-26", "src/group/edwards25519/point.rs:207-224"]}
{"id": "C152", "title": "Accepted partial signatures make a valid signature", "statement": "On edwards25519, a partial signature that process_partial_sig accepts is, modulo the group order, what its signer owes, and the signature recovered from t accepted partial signatures verifies under the distributed key.", "quantifier": "all keys, nonces, messages, thresholds, sets of signers and 32-byte strings as partial signatures", "why_tests_cant": "Tests pass partial signatures made by the library, which are reduced; a malicious signer can send any 32 bytes.", "anchors": ["src/sign/dss/dss_sig.rs:244-277, 290-310", "src/share/poly.rs: recover_secret, PubPoly::eval", "src/group/edwards25519/point.rs:207-224"]}
{"id": "C153", "title": "A message of an earlier run is not taken for one of the current run", "statement": "If a group runs the key generation again with the same long-term keys, a participant of the new run refuses the deals, responses and commitments that were sent in an earlier run.", "quantifier": "all groups, thresholds, secrets, polynomials and nonces of both runs; all sets of dealers whose messages are replaced; all orders of arrival", "why_tests_cant": "Each test runs the protocol once, with fresh keys; that messages recorded in one run are accepted in another does not show.", "anchors": ["src/share/vss/pedersen/vss.rs:595-660, 1069-1106", "src/share/vss/rabin/vss.rs:640-710", "src/share/dkg/pedersen/dkg.rs:513-600", "src/share/dkg/rabin/dkg.rs:515-560"]}
{"id": "C154", "title": "A signature made for one kind of message is not one for another kind", "statement": "The bytes that a long-term key signs for a deal, a response, a justification, secret commitments, a complaint, a revealed share, a deal of the Pedersen DKG and a partial signature are different for different kinds, unless the hash collides on what is hashed; so a signature recorded in one place of the protocols is not accepted in another. Violated for encrypted deals: their signature covers only the Diffie-Hellman key, without a tag, and whoever holds the key of the verifier can attach any deal to it.", "quantifier": "all suites with hashes and points of 32 bytes, all messages, keys and signatures", "why_tests_cant": "Tests verify each signature where it belongs; that no pair of messages of two kinds is signed as the same bytes is a statement about all pairs of messages.", "anchors": ["src/share/vss/pedersen/vss.rs:223-231", "src/share/vss/pedersen/vss.rs:268-278", "src/share/vss/pedersen/vss.rs:355-385", "src/share/vss/pedersen/vss.rs:640-660", "src/share/vss/rabin/vss.rs:254-302", "src/share/dkg/rabin/dkg.rs:209-313", "src/share/dkg/pedersen/structs.rs:99-105", "src/sign/dss/dss_sig.rs:150-160"]}
{"id": "C155", "title": "Whether a deal is certified does not depend on the order in which the responses arrive", "statement": "Two verifiers of one deal with the same verdict on the dealer, threshold and timeout, who received the same responses in any two orders (their own answers are stored before the others arrive), agree whether the deal is certified; what is stored for an index is the first response in the right session with a valid signature by its holder. Violated for verifiers who give two answers: the first one heard counts, and one participant who approves and complains splits a Pedersen DKG in which everybody receives all messages.", "quantifier": "all groups, key lists, states of the two verifiers, lists of responses, valid or not, and orders", "why_tests_cant": "Tests deliver the responses in the order of the indices, once each; agreement over all orders and all sets of responses is a statement about all permutations.", "anchors": ["src/share/vss/pedersen/vss.rs:666-671", "src/share/vss/pedersen/vss.rs:931-946", "src/share/vss/pedersen/vss.rs:976-1029", "src/share/vss/rabin/vss.rs:710-717", "src/share/vss/rabin/vss.rs:919-1004"]}
{"id": "C156", "title": "A participant of the Pedersen DKG that obtained its key share keeps it", "statement": "Once dist_key_share of a fresh Pedersen DKG has returned a key share, it returns the same one after all later deals, responses, justifications and timeouts. Violated: before all dealers are heard a share can be obtained from the dealers qualified so far, and changes when more of them qualify, in an honest run; after a timeout a late complaint disqualifies a dealer and the share changes or is lost. It holds once every deal has either all approvals or a complaint or a bad justification, and in particular once certified() is true.", "quantifier": "all groups, participants, histories before and after, and iteration orders of the hash maps", "why_tests_cant": "Tests call dist_key_share once, when everything has arrived; what it returns after arbitrary later messages is a statement about all continuations of all histories.", "anchors": ["src/share/dkg/pedersen/dkg.rs:716-751", "src/share/dkg/pedersen/dkg.rs:832-954", "src/share/vss/pedersen/vss.rs:1007-1029"]}
{"id": "C157", "title": "A participant of the Rabin DKG that obtained its key keeps it through the second phase", "statement": "Once dist_key_share of the Rabin DKG has returned a key, it returns the same one after any commitments and reconstruction messages that arrive later. Violated: process_secret_commits stores the commitments of a qualified dealer again each time, so that a dealer can replace them after the end; any commitments that fit the receiver's own share are accepted, and for every point there are such ones that make it the receiver's public key. The private share stays the same whatever messages of the second phase arrive, and the key does as long as the commitments that come are those known.", "quantifier": "all groups, participants, histories before and after, public keys wanted by the dealer, and iteration orders of the hash maps", "why_tests_cant": "Tests deliver the commitments of each dealer once; that a later message may not change the key is a statement about all continuations of all histories.", "anchors": ["src/share/dkg/rabin/dkg.rs:683-738", "src/share/dkg/rabin/dkg.rs:814-872", "src/share/dkg/rabin/dkg.rs:877-957"]}
{"id": "C158", "title": "The participants of an honest Rabin key generation sign together with the keys they obtain", "statement": "After an honest run of the Rabin DKG, the partial signature that a participant makes with the key it obtains, at any time after all messages of the run have arrived, is accepted by every other participant. Violated: one further message of a dealer, signed commitments that fit the receiver's share, gives the receiver a key whose public key is another one; session_id of dss covers all commitments, so its partial signatures are refused with InvalidSessionId by all others, it refuses theirs, and with a threshold of two or more it never has a signature. It holds if the commitments that come again are those of the run.", "quantifier": "all suites that keep the contract of group.rs, in particular edwards25519; all numbers of participants, thresholds, orders of messages, dealers, receivers, messages to sign and calls on the sessions; hash functions that do not collide on the commitments", "why_tests_cant": "The message comes after the end of a run that no test continues, and its commitments have to be solved for from the share of the receiver.", "anchors": ["src/share/dkg/rabin/dkg.rs: process_secret_commits, dist_key_share", "src/sign/dss/dss_sig.rs: new_dss, partial_sig, process_partial_sig, session_id, signature"]}
