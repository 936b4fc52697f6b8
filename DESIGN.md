# Formal model of kyber-rs: design

Source: `/repo` (kyber-rs 0.1.0-alpha.9), read as text, never built or run.
Prover: Lean 4.33.0 with Mathlib. Build: `cd lean && lake build`.

## Layout

* `lean/Verif/Model/*.lean`, `lean/Verif/Model/Ed/*.lean`: the model, one file per Rust source file (or
  pair of files). Every definition cites file and lines; simplifications are listed at the head of
  the file or at the definition.
* `lean/Verif/Spec/*.lean`: what the English properties talk about, independent of the code: genuine
  shares, histories of calls, honest runs, RFC 8032, and the small concrete suites used in examples.
* `lean/Verif/Lemmas/*.lean`: helper lemmas.
* `lean/Verif/Props/*.lean`: the property theorems (`Cnn_...`), with `example`s showing that
  their hypotheses are met by concrete cases.
* `seeded/LOG.jsonl`: faults planted in the model and the theorems that failed. A theorem counts as failed if its proof,
  or one it uses, no longer goes through; that alone does not show its statement false. `caught` is null where the
  build could not be finished.

## Modelling conventions

* **Panics** are explicit: `Res ε α` has the constructors `ok`, `err`, `panic`. Slice indexing out
  of range, `unwrap` on `None` or `Err`, `copy_from_slice` with different lengths, division by zero
  are `panic`.
* **Overflow**: `Cargo.toml` sets `overflow-checks = false` for `dev`, and release builds do not
  check either, so machine arithmetic wraps. The limb code wraps in the model (`Model/Ed/Limb.lean`),
  and the theorems on it show that no wrap occurs (C46_mul_no_overflow, C49_no_overflow), so they
  cover checking builds too. Canonicity tests, which wrap on purpose, use `UInt8`/`UInt16`. Cargo ignores
  the profile when the crate is a dependency: C125 says what these tests do with overflow checks.
* **`&mut self`** becomes a returned new state, also on the error path: a state changed before an
  error is returned is the changed state.
* **Histories**: theorems about objects quantify over arbitrary lists of calls with arbitrary arguments
  (what an adversary may send), proved by induction over the list; no bound on their number, on the
  number of participants, thresholds, sizes of messages.
* **HashMap** is an association list; where the code iterates, an arbitrary rearrangement
  (`MapOrder`), and the theorems quantify over it. One `MapOrder` gives one rearrangement per list,
  so two maps with equal contents iterated in one call are visited in the same order; theorems that need
  more take the order per call as a separate variable.
* **Protocol layer** (`poly`, `schnorr`, `eddsa`, `dss`, `vss`, `dkg`, `ecies`, `dh`): the Rust code is
  generic over the `Group`/`Suite` traits. The model is generic over a scalar field `F`, a commutative
  group `G` and any operation of `F` on `G`. `Suite.Lawful` says what `group.rs:155-184` leaves implicit: that
  encodings round-trip and that scalars act linearly on the multiples of the base point (`Lin`), not on all
  points, because edwards25519 has points of order 2, 4 and 8 on which they do not (C70). `C91_contract` proves
  `Suite.Lawful` of the edwards25519 code (`Spec/Ed/Suite.lean`), so all theorems that assume only this,
  in particular those on honest runs, hold for it. Theorems that assume a vector space (`Module F G`), on
  what cheating dealers can do, hold for groups of prime order; what is left of them on the curve is the subject of
  C92 and later.
* **External crates** (SHA-2, BLAKE3, HKDF, AES-GCM, serde/bincode, num-bigint, OS randomness) are
  parameters. Assumptions on them ("open inverts seal", "decoding inverts encoding") are explicit
  hypotheses or fields of `Suite.Lawful`, `Dh.Lawful`, `Codec` and are met by the toy suites of
  `Spec/Toy*.lean`. `num-bigint` is Lean's `Int`. For bincode there is a model of the documented format
  (`Model/Bincode.lean`); the protocol theorems take the codec of deals as a parameter and ask only that the
  deals which honest dealers make are read back, and C106 proves this of the modelled format.
  Where a theorem replaces an honest dealer by another, the assumption is `Net.ReadsBack` (`RNet.ReadsBack`),
  and `Ed.reads_back`, `Ed.reads_back_rabin` prove it of the modelled format for up to 2^64 participants.
* **Collisions**: no theorem assumes a hash without collisions. A theorem that concludes from equal hashes to equal
  contents assumes `Spec.Apart` of the two inputs in question: if their hashes agree, they are equal. Only the
  refuted statements assume an injective hash, which makes their refutation stronger.
* **Scalars in the protocol models are residues.** The code keeps 32 bytes and deserialises them without reduction.
  All scalar arithmetic depends on the residue only (C49), `Point::mul` does not for bytes from `lossFrom` on, about
  8.47 * 2^252 (C69). A protocol theorem about shares or partial signatures that other parties sent therefore
  speaks about bytes below that bound, on which the two readings agree; C151 and C152 treat all bytes and give what
  goes wrong beyond.
* **Randomness** is an argument; a statement about secrecy or uniformity counts the arguments.

## Trusted base

* Lean's kernel. Each theorem depends on a subset of the axioms `propext`, `Classical.choice`, `Quot.sound`, and
  on no others; there is no `sorry`, no `native_decide`, no `bv_decide`. `decide +kernel` is evaluated by the
  kernel.
* The reading of the Rust source in `Verif/Model`: the definitions were transcribed by hand, the tables
  of `constants.rs` and the limb programs of `fe.rs` and `scalar.rs` by script.
* The hypotheses of the theorems on the external crates.

## What is modelled

| Rust | Lean |
|------|------|
| `share/poly.rs` (all but serde; `Display`, `Debug` in `Model/Display.lean`) | `Model/Poly.lean`, `Model/Index.lean` (index arithmetic) |
| `sign/schnorr/schnorr_sig.rs` | `Model/Schnorr.lean`, on the curve `Model/Ed/Sig.lean`, with overflow checks `Model/Ed/Checked.lean` |
| `sign/eddsa/eddsa_sig.rs`, keys of `group/edwards25519/curve.rs` | `Model/Eddsa.lean`, on the curve `Model/Ed/Sig.lean` |
| `sign/dss/dss_sig.rs` | `Model/Dss.lean` |
| `dh/dh_impl.rs`, `encrypt/ecies/ecies_impl.rs` | `Model/Dh.lean` |
| `share/vss/pedersen/vss.rs` | `Model/VssPedersen.lean` |
| `share/vss/rabin/vss.rs` | `Model/VssRabin.lean` |
| `share/dkg/pedersen/{dkg,structs}.rs` | `Model/DkgPedersen.lean` |
| `share/dkg/rabin/dkg.rs` | `Model/DkgRabin.lean` |
| `group/edwards25519/ge_mult_vartime.rs`; derived order, hash and serde of `group/edwards25519/point.rs` | `Model/Ed/Vartime.lean` |
| `examples/enc_test.rs`, the decryption variants of `examples/dkg_test.rs` | `Model/Ed/ElGamal.lean` |
| `util/key/key_pair.rs`, key generation of `group/edwards25519/curve.rs` | `Model/Ed/KeyPair.lean` |
| `group/integer_field/integer.rs` (serde: `Model/IntSerde.lean`) | `Model/Int.lean`, text `Model/Text.lean` |
| `util/random/random_stream.rs`, `cipher/stream.rs`, `xof/blake3/xof.rs` | `Model/Random.lean` |
| `group/edwards25519/fe.rs` | `Model/Ed/Fe.lean` |
| `group/edwards25519/scalar.rs` | `Model/Ed/Scalar.lean` |
| `group/edwards25519/scalar_test_types.rs` (all but text forms and benchmarks) | `Model/Ed/ScalarTypes.lean` |
| `group/edwards25519/{ge,point}.rs` | `Model/Ed/Ge.lean` |
| `group/edwards25519/constants.rs` | `Model/Ed/{Base,Fe,Ge,Scalar}.lean` |
| `group/internal/marshalling/marshal.rs` (`point_marshal_to`, `scalar_marshal_to`, `*_unmarshal_from`; the two `*_unmarshal_from_random` are `pick`) | `Model/Ed/Marshal.lean` |
| `encoding/encodings.rs:49-59` and the derived serde of all messages and of the objects that hold state, in the documented format of bincode | `Model/Bincode.lean`, `Model/Ed/Bincode.lean`, `Model/State.lean` |

Text forms of scalars and points (`LowerHex`, `UpperHex`, `Display`) are in `Model/Text.lean`,
`Display` and `Debug` of the protocol objects in `Model/Display.lean` (one line form, `{:?}`; maps print in the order of the model's list).

Not modelled: error texts, test and bench code,
timing (constant-time claims), memory exhaustion, and
`suite.rs` (delegations only), the rest of `examples`.

## Where the code does not do what one would expect

Every `Cnn_violated...` theorem is a proof, on the model, that the statement `Cnn_statement` of the property is
false of the code; next to it stands what does hold. The causes, in short:

* C08 `recover_pub_poly` takes the position in the list for the index. C10 `PubPoly::equal` compares a prefix
  and panics on a shorter argument.
* C15 `EdDSA::from(Pair)` has an empty prefix: nonces are a public function of the message.
* C18 own partial signature counted twice. C20 `decrypt` slices before checking the length.
* C27, C29, C61-C65 VSS: complaints stay after justification; justifications are not signed, their index and
  commitments are not bound to the deal; degree and threshold are taken from the dealer's message.
* C33-C38, C74, C76-C79 Pedersen DKG: equivocation, threshold 0, dropped errors, duplicated keys, refused
  resharing deals that count, panics on messages.
* C40, C80-C85 Rabin DKG: forged complaints, reconstruction from unverified shares, commitments of
  any length, no timeout for the dealer, session id not signed, panics on messages.
* C42, C43, C66 modular integers: `div`, `exp`, `sqrt`, little-endian encodings, negative values.
* C51, C53, C68-C72 edwards25519: stale bytes of the receiver, wrong canonicity bound, unreduced scalars
  in `mul`, lax decoding, receiver changed on failure. C67 `RandStream` restarts its key stream.
* C158 by C157 a dealer of the Rabin DKG can shut a participant out of signing after an honest run.
* C157 a qualified dealer of the Rabin DKG can replace its commitments after the end, and so give one participant any public key it likes.
* C156 a key share obtained before everything was heard changes when more dealers qualify, and a complaint that arrives after the timeout takes it back.
* C155 a verifier that approves and complains is recorded with the answer heard first: the order of arrival decides, and one such participant splits a Pedersen DKG although everybody receives all messages.
* C123 a dealer that withholds its deal from one participant splits the group: both sides finish, with different keys.
* C124 two sets of holders decrypt a pair of points off the subgroup differently, and the partial decryptions give bits of the shares away.
* C125 verification panics on points of small order in builds with overflow checks.
* C127 a dealer with one commitment too many keeps everybody from getting a key; C128 a dealer with points of order two gives the others a key without private key.
* C131 a stored EdDSA key with a public key that does not belong to it is accepted.
* C133 the participant of the Pedersen DKG that deals last can choose properties of the key.
* C135 a qualified dealer of the Rabin DKG that keeps its commitments back, or reveals wrong ones, blocks the correct participants.
* C136 a participant that answers no deals stops the Rabin DKG, in spite of the timeout.
* C138 correct participants that ask for the key before all messages have arrived get different keys.
* C139 the exported type FactoredScalar returns zero for every sum and product, SimpleCTScalar subtracts the wrong way round; C140 both are written in two ways.
* C141 a modular integer read with serde can be out of range or have modulus zero.
* C151, C152 shares and partial signatures sent as unreduced bytes are approved although they are wrong.
* C153 nothing in the messages of a key generation or resharing belongs to the run: recorded ones of an earlier run of the same group are accepted.
* C154 the signature of an encrypted deal covers only the Diffie-Hellman key, and without a tag.
* C86, C88 the wrong canonicity bound of C53 makes verification refuse a few genuine signatures.
* C92 commitments with a component of small order pass the check of a share, C94 and spoil threshold signatures for half of the messages. C95 points of
  small order are accepted in key exchanges.
* C96 the two multiplication routines disagree for 256-bit scalars. C97 the order on points is not consistent with equality.
* C98 serde accepts coordinates that are not a point of the curve. C99 private keys lose the factor 8 when marshalled.
* C102 bytes after a message are ignored. C103 equal messages have different binary forms and hashes. C104, C105 the hash of a
  justification and the session id do not determine what is hashed.
* C107 little-endian integers on a stream run into each other. C108 unmarshal_from an XOF may fail, or store an unreduced scalar.
* C109 one false complaint removes an honest dealer, and a replayed answer silences an honest participant.
* C110 a leaving node of a resharing publishes the share of a holder when a complaint of that holder about another dealer or session is replayed.
* C114 the share with index usize::MAX is the secret, because its evaluation point wraps around to zero.
* C115 the Jacobi symbol of a non-square is stored as -1 and encoded like 1.
* C116 a random distributed key can sign two messages, which gives away the long-term secret.
* C117 Debug of an EdDSA key prints secret, seed and prefix.
* C120 an unsigned justification with an invalid deal disqualifies a correct dealer in the Rabin DKG.
* C111 negative modular integers print without the sign. C112 values given as text are not reduced, fractions are multiplied. C113 unreduced scalars print their bytes, not their encoding.

## Per property

What is modelled and how it is proved. Theorem names are those of `MANIFEST.json`, without the prefix
`Cnn_`. A name with suffix `_partial` proves part of the property or the exact behaviour where the
property fails; `violated` names refute the property's full statement on the model.

**C01 Any t shares reconstruct the secret** (proved). `recover_secret` as a fold over the shares in map order;
Lagrange interpolation at 0, uniqueness of polynomials of degree below t. For every field with characteristic
q and indices below q, every list of genuine shares, every map iteration order. In `Shamir`: `recover_secret`,
`eval_genuine`, `shares_recover`, `new_pri_poly`.

**C02 Too few shares are always refused** (proved). Case analysis of the selection of shares. In `Shamir`:
`recover_secret_refuses`, `recover_commit_refuses`, `recover_pri_poly_refuses`, `recover_pub_poly_refuses`.

**C03 Reconstruction does not depend on order** (proved). Permutation invariance of the folds; agreement of
any two selections. In `Shamir`: `recover_secret_order`, `recover_commit_order`, `recover_pri_poly_order`.

**C04 recover_pri_poly returns the whole polynomial** (proved). Interpolation as polynomial identity
(`Lagrange.interpolate`). In `Shamir`: `recover_pri_poly`.

**C05 Fewer than t shares reveal nothing** (proved). For t-1 shares and each candidate secret a unique
polynomial; hence equal counts. Existence, uniqueness and equal counts of compatible polynomials: perfect
secrecy for uniformly drawn coefficients. In `Shamir`: `no_secret_excluded`, `unique`, `equally_likely`.

**C06 Public commitments match private shares** (proved). Induction over coefficient lists, module laws. In
`Shamir`: `commit_eval`, `pub_eval`, `pub_eval_sum`, `pub_commit`, `pub_shares`, `check_genuine`, `check_iff`.

**C07 recover_commit recovers the public secret commitment** (proved). Lagrange in the exponent. In `Shamir`:
`recover_commit`, `shares_recover`, `matches_private`.

**C08 recover_pub_poly rebuilds the commitment polynomial** (partial). Witness for the failure; list indices
equal to positions for the rest. The code violates the full statement (C08_violated, C08_panics): it only
works when the indices 0..t-1 are all present. In `Shamir`: `violated`, `panics`, `recover_pub_poly_partial`.

**C09 Polynomial addition and multiplication are homomorphic** (proved). Coefficientwise induction. In
`Shamir`: `add`, `add_secret`, `add_refuses`, `mul`, `pub_add`.

**C10 Polynomial equality is exact** (partial). Byte comparison of encodings; witnesses. PriPoly::equal is
exact; PubPoly::equal is not (C10_violated_longer, C10_violated_panic); its exact behaviour is
C10_pub_equal_prefix. In `Shamir`: `pri_equal`, `violated_longer`, `violated_panic`, `pub_equal_partial`,
`pub_equal_prefix`.

**C11 Schnorr signatures verify** (proved). Algebra of the verification equation and the order of the checks.
Completeness under the suite laws; the points must pass the library's own canonicity and small order tests. In
`Signatures`: `sign_verify`, `small_order_refused`.

**C12 Schnorr verification accepts exactly valid signatures** (proved). The function is unfolded into its
decision; base point of full order for uniqueness. Decision logic without assumptions; uniqueness of s for a
base point of full order. In `Signatures`: `accepts_iff`, `never_panics`, `not_malleable`.

**C13 Schnorr special soundness** (proved). Two equations solved for the key. In `Signatures`:
`special_soundness`, `nonce_reuse`.

**C14 EdDSA signatures verify and are deterministic** (proved). As C11, C12; signing has no random argument.
In `Signatures`: `accepts_iff`, `never_panics`, `sign_verify`, `schnorr_is_eddsa`.

**C15 EdDSA keys built from a key pair keep the private key secret** (partial). An explicit extractor;
simulation by a bijection on nonces. Violated by From<Pair> (C15_violated gives the attack);
C15_simulatable_partial shows what holds with uniform nonces. In `EdKeys`, `Signatures`: `edwards25519`,
`violated`, `simulatable_partial`.

**C16 EdDSA key serialisation round-trips** (proved). Round trip of seed and derived key. In `Signatures`:
`round_trip`, `unmarshal_iff`, `from_pair_panics`.

**C17 Distributed signature: any t partials give the group signature** (proved). Partial signatures are shares
of H a + b; interpolation as in C01. In `Dss`: `signature`, `too_few`, `verifies`, `honest_accepted`.

**C18 Distributed signature: bad partial signatures never enter** (partial). Invariant over every history of
`process_partial_sig`/`partial_sig`. Acceptance condition, stored partials correct for every history.
Distinctness of indices is violated when the owner's own partial is delivered before partial_sig
(C18_violated_duplicate); C18_distinct_partial covers the other histories. In `Dss`: `accepts_iff`,
`parameters_fixed`, `stored_correct`, `violated_duplicate`, `distinct_partial`.

**C19 ECIES round-trip** (proved). Shared point commutes, AEAD round trip. In `Dh`: `round_trip`,
`encrypt_succeeds`.

**C20 ECIES decryption never panics** (partial). Exact panic condition by case analysis. Violated for
ciphertexts shorter than a point (C20_panics_iff is exact). In `Dh`: `panics_iff`, `violated`,
`no_panic_partial`.

**C21 Diffie-Hellman agreement and authenticated encryption** (proved). Commutation of scalar multiplication;
AEAD round trip; buffer lengths. AES-GCM and HKDF are parameters with the assumption that open inverts seal.
In `Dh`: `shared_point`, `seal_open`, `encrypt_decrypt`, `wrong_key_length`, `dst_panics`.

**C22 VSS: an honest dealer is approved by every verifier** (proved). Composition of the calls of an honest
run, by induction over the participants. Every honest run: setup, encrypted deals, approvals, certification,
recovery; the points must pass the library's own canonicity test (see C53). In `VssPedersen`:
`honest_approval`, `encrypted_deal_ok`, `new_dealer_ok`, `honest_run`, `recover`.

**C23 VSS: certification rule** (proved). Counting over the response map. Exact certification rule over
arbitrary aggregator states, missing responses, timeout. In `VssPedersen`: `certified_iff`,
`certified_threshold`, `missing_responses`, `timeout_monotone`.

**C24 VSS: approved shares lie on the committed polynomial** (proved). Deal check against commitments;
interpolation. Every deal a verifier approves lies on the committed polynomial, and t such deals recover the
committed secret. For shares and partial signatures sent as unreduced bytes on edwards25519 see C151, C152. In
`VssPedersen`: `approved_deal`, `recover_committed`.

**C25 VSS: one deal, one response per verifier, never overwritten** (proved). Invariants by induction over
histories of calls. Invariants over every history of calls. In `VssPedersen`: `response_kept`, `deal_kept`,
`second_deal_refused`, `second_deal_error`, `indices`, `second_response_refused`.

**C26 VSS: responses are authenticated** (proved). Decision logic of `process_response`. Exact acceptance
condition. In `VssPedersen`: `authenticated`, `accepts_iff`, `effect`.

**C27 VSS: a justified complaint becomes an approval** (partial). Decision logic, histories, witness. Violated
by the Pedersen variant (C27_violated_pedersen): a justified complaint stays a complaint. The Rabin variant
satisfies it (C27_rabin_complaint_becomes_approval, C27_rabin_accepts_iff). In `VssPedersen`, `VssRabin`:
`responses_unchanged_partial`, `complaint_is_permanent_partial`, `violated_pedersen`,
`rabin_complaint_becomes_approval`, `rabin_accepts_iff`.

**C28 VSS: a caught dealer stays caught** (proved). Invariant over histories. Over every history of network
calls, both variants. In `VssPedersen`, `VssRabin`: `bad_justification_marks`, `bad_forever`,
`only_justification_marks`, `rabin_bad_justification_marks`, `rabin_bad_forever`.

**C29 VSS: a justification needs the dealer's authority** (partial). Decision logic, witnesses with forged
justifications. Violated in both variants: justifications are not authenticated and not bound to the
complaint's index; C29_accepts_iff_partial is the exact condition. In `VssPedersen`, `VssRabinMore`:
`accepts_iff_partial`, `violated_unsigned`, `violated_index`, `rabin_violated_unsigned`,
`rabin_violated_index`.

**C30 Rabin VSS: honest run and hiding commitments** (proved). Honest run by induction; bijection of
polynomials for hiding. Completeness of every honest run, recovery, and perfect hiding of shares plus
commitments. In `EdSecrecy`, `VssRabin`: `edwards25519`, `new_dealer_ok`, `honest_approval`, `honest_run`,
`recover`, `hiding`, `view_hides_secret`.

**C31 Rabin VSS: binding of shares** (proved). Linear algebra on two openings. Two openings of one commitment
give the discrete logarithm of H; shares are unique under independence of B and H. In `VssRabin`:
`two_openings`, `share_unique`, `check_deal`.

**C32 Rabin VSS: certification rule and timeout** (proved). Counting over the response map. Exact
certification rule, timeout, and monotonicity. In `VssRabin`: `certified_iff`, `deal_iff`, `timeout`,
`certified_after_timeout`, `certified_stays`.

**C33 DKG: all participants agree on one key with consistent shares** (partial). Sums of polynomials over
qualified dealers; run of all messages in any order by induction over the schedule. Exact condition for a key
(C33_dist_key_share_iff), honest runs of any size in any message order (C33_honest_run, C33_honest_recover).
Agreement fails if a dealer equivocates on its commitments (C33_violated_equivocation); C33_agreement_partial
assumes the same deals. In `DkgPedersen`, `DkgPedersenHonest`: `dist_key_share_iff`, `order_independent`,
`agreement_partial`, `recover`, `new_generator_ok`, `honest_run`, `honest_recover`, `violated_equivocation`.

**C34 DKG: resharing preserves the distributed key** (partial). Double interpolation; deals of old shares.
`C34_same_key_base` and `C34_approved_base_partial` ask for linearity on the base point only, so they hold on
edwards25519. The exact result of dist_key_share at a new participant, key preservation for honest and for
approved deals, recovery. Against arbitrary messages the statement is violated: a refused deal can become
qualified. In `DkgPedersenReshare`, `EdReshare`: `dist_key_share_iff`, `share_on_commits`, `same_key`,
`honest`, `recover`, `approval`, `approved_partial`, `violated_rejected`, `same_key_base`,
`approved_base_partial`.

**C35 DKG: renew keeps the key and refreshes the share** (partial). Coefficientwise sum. Exact condition and
failure cases proved; violated when the number of commitments differs; C35_renew_valid_partial assumes equal
lengths. In `DkgPedersenRenew`: `renew_iff`, `renew_fails`, `renew_valid_iff`, `renew_valid_partial`,
`renewals`, `violated_longer`, `violated_shorter`.

**C36 DKG: qualified set** (partial). Characterisation of the filter over verifiers in reachable states. Exact
condition proved for participants and for leaving nodes; violated for a leaving node, which counts dealers
that do not exist. In `DkgPedersen`, `DkgPedersenQual`: `qual`, `certified`, `threshold_certified`,
`qual_leaving`, `violated_unknown_dealer`.

**C37 DKG: finishing is safe with an unspecified threshold** (partial). Configurations with threshold 0 as
witnesses. Violated for threshold 0 (panic, key from one dealer); C37_threshold_partial covers every specified
threshold. In `DkgPedersenConfig`: `threshold_partial`, `violated_panic`, `violated_single_dealer`.

**C38 DKG: duplicated keys are refused** (partial). Search for duplicates in both lists. Violated: the error
of init_verifiers is dropped, and duplicates in the new list are not looked for when resharing;
C38_duplicates_partial says what happens. In `DkgPedersenConfig`: `duplicates_partial`, `violated`,
`violated_resharing`, `violated_verifiers`.

**C39 Rabin DKG: reconstruction and final key** (proved). Invariant of reachable states, decision logic of
`finished`/`dist_key_share`, honest schedule by induction. Exact conditions for finished and for a key, order
independence, honest runs of any size in any admissible message order (C39_honest_run, C39_honest_recover),
reconstruction of commitments. In `DkgRabin`, `DkgRabinHonest`: `new_generator_ok`, `finished_iff`,
`dist_key_share_iff`, `order_independent`, `succeeds_iff`, `no_panic`, `share_on_commits`,
`share_on_commits_reconstructed`, `reconstruct`, `key_is_sum`, `recover`, `honest_run`, `honest_recover`.

**C40 Rabin DKG: complaints and reconstruction need valid evidence** (partial). Decision logic; witness runs.
Exact condition for accepting a complaint, its effect, and everything that can change commitments. Violated: a
complaint with an invented deal is accepted, and the key of a participant can be changed after an honest run.
In `DkgRabinEvidence`: `complaint_iff`, `complaint_effect`, `commitments_change`, `commits_iff`,
`genuine_complaint`, `violated_forged_complaint`, `violated_key`.

**C41 Modular integers implement ring arithmetic** (proved). `Int` arithmetic modulo m. In `Int`: `add`,
`mul`, `sub`, `neg`, `inv`, `inv_panics`, `equal`, `nonzero`, `default`, `setters`, `uint64_round_trip`.

**C42 Modular division and exponentiation** (partial). `Int.tmod`, extended gcd, Euler criterion; witnesses.
Violated by div, exp and sqrt (C42_violated_*); the partial theorems give what the calls compute. In `Int`:
`violated_div`, `div_partial`, `violated_exp`, `exp_partial`, `violated_sqrt`, `sqrt_partial`.

**C43 Modular integer encodings round-trip** (partial). Induction over byte lists. Violated in little-endian
order for values with leading zero bytes; everything else is proved; acceptance condition exact. In `Int`:
`violated_little_endian`, `big_endian_encoding`, `round_trip_partial`, `accepts_iff`, `unique`,
`big_endian_panics`.

**C44 Random integers are in range and unbiased** (proved). Streams as state machines; counting of draw
sequences. Range, first-accepted semantics, exact uniformity over all draw sequences, divergence cases. In
`Random`: `bits`, `bits_exact`, `bits_zero_exact`, `first_accepted`, `range`, `no_result`, `failing_stream`,
`library_streams`, `from_seed`, `uniform`, `reachable`.

**C45 Stream XOR is an involution and position-consistent** (proved). Key stream as function of input and
position. BLAKE3 is an arbitrary function from input and position to bytes. In `Random`: `involution`,
`splitting`, `destination`, `write_splitting`, `write_after_read`, `write_all_after_read`, `write_all`,
`reseed`, `reseed_writes`.

**C46 Field arithmetic mod 2^255-19 is exact and overflow-free** (proved). Limb programs; carry step lemma
with interval bounds computed by the kernel, value as ring identity. All limb vectors within the documented
bounds; the bounds are closed under the operations. In `EdField`: `value`, `prime`, `add`, `sub`, `add_add`,
`sub_sub`, `neg`, `mul`, `square`, `square2`, `compose`, `mul_no_overflow`, `c_move`, `constants`.

**C47 Field inversion and square-root exponent** (proved). Addition chain in `ZMod p`; Pratt certificate for
p. In `EdField`: `invert`, `invert_mul`, `pow22523`.

**C48 Field element encoding is canonical** (proved). Carry chain of the freeze step. In `EdField`:
`to_bytes`, `to_bytes_inj`, `from_bytes`, `round_trip`, `canonical`, `decode_encode`, `is_negative`,
`is_non_zero`.

**C49 Scalar arithmetic is exact modulo the group order** (proved). As C46 with 24 limbs. All 32-byte
operands. In `EdScalar`: `mul_add`, `mul`, `add`, `sub`, `no_overflow`.

**C50 Scalars form the field of integers modulo l** (proved). Ring identities in `ZMod L`; Pratt certificate
for L. Ring laws as byte equalities for all 32-byte operands, inversion by Fermat, primality by a Pratt
certificate. In `EdScalar`: `prime`, `closed`, `ring`, `neutral`, `inv`, `inv_zero`, `div`,
`no_zero_divisors`, `eq`.

**C51 Scalar setters ignore the receiver** (partial). `set_int` on byte arrays. Violated
(C51_violated_set_int64, C51_violated_set_bytes): stale high bytes of the receiver survive; C51_exact is the
exact effect. In `EdScalar`: `violated_set_int64`, `violated_set_bytes`, `set_int64_partial`,
`set_bytes_partial`, `pick_partial`, `exact`.

**C52 Scalar canonicity test is exact** (proved). Byte loop invariant with wrapping subtraction. Exact. In
`EdScalar`: `is_canonical`, `outputs_canonical`.

**C53 Point canonicity test is exact** (partial). Byte loop; witness. Violated: the canonical encodings of
p-217..p-1 are refused; accepted strings are canonical. In `EdPoint`: `violated`, `is_canonical_partial`.

**C54 Small order test is exact** (proved). Table of weak keys against the 8-torsion points. Exactly the
points of order dividing 8. In `EdPoint`: `small_order`, `listed`, `eight_points`, `base_null`.

**C55 Point addition formulas implement the Edwards group law** (proved). Field identities; completeness from
d non-square; associativity by `linear_combination`. Formulas over well-formed elements (limb bounds, Z
nonzero, on the curve, XY=ZT), group laws, closure of well-formedness over all API calls. In `EdPoint`: `add`,
`sub`, `neg`, `double`, `mixed`, `group`, `reachable`, `default_invalid`.

**C56 Scalar multiplication is repeated addition** (proved). Recoding invariant, double-and-add loop, table
checked by the kernel against multiples of the base point. All scalars below 2^255, all points, and the table
of precomputed multiples. In `EdPoint`: `mul`, `mul_base`, `iterate`, `table`.

**C57 Point encoding round-trips** (proved). Square root case analysis. All well-formed elements. In
`EdPoint`: `round_trip`, `eq`, `marshal`.

**C58 Decoding accepts only curve points** (proved). Square root case analysis. Exact acceptance condition and
result. In `EdPoint`: `decode`, `accept`, `length`.

**C59 Embedded data is recovered** (proved). Loop with fuel; invariant of a round. All streams and data; the
loop is a fuel-bounded recursion, results hold for every fuel; completeness of a round. In `EdPoint`: `embed`,
`embed_subgroup`, `pick`, `embed_accept`, `pick_accept`, `pick_retry`, `data`.

**C60 Clamped private keys avoid small subgroups** (proved). Bit arithmetic on the digest. All 64-byte
digests. In `EdPoint`, `EddsaKey`: `clamp`, `subgroups`, `eddsa_key`.

**C61 The committed polynomial has degree below the threshold** (partial). Witness deal with too many
commitments; what t deals recover. Violated (C61_violated, C61_violated_recovery); C61_recover_partial is what
holds. In `VssPedersenMore`: `recover_partial`, `violated`, `violated_recovery`.

**C62 The announced threshold is enforced** (partial). Decision logic; the setter writes a field nobody reads.
Violated (C62_violated); C62_no_effect_partial shows the call has no effect. In `VssPedersenMore`:
`no_effect_partial`, `violated`.

**C63 Verifiers agree on the commitments** (partial). Hypothesis: the two session-id inputs in question do not
collide under the hash (`Spec.Apart`); witness dealer. Violated (C63_violated_equivocation) because the
session id in a deal is never recomputed; C63_agreement_partial holds when it is the right one. In
`VssPedersenMore`: `session_id_binds`, `agreement_partial`, `violated_equivocation`.

**C64 deal() returns only a deal that passed the verifier's check** (partial). Invariant over histories;
witness replays. Violated in both variants (C64_violated_replay, C64_rabin_violated,
C64_rabin_violated_justified); the partial theorems cover the remaining histories. In `VssPedersenDeal`,
`VssRabinMore`: `no_replay_partial`, `violated_replay`, `rabin_own_approval_partial`, `rabin_violated`,
`rabin_violated_justified`.

**C65 An accepted justification reveals a share of the polynomial that was dealt** (partial). Decision logic;
witness. Violated in both variants: the justification is checked against its own commitments only. In
`VssPedersenDeal`, `VssRabinMore`: `same_commitments_partial`, `violated`, `rabin_same_commitments_partial`,
`rabin_violated`.

**C66 Modular integers stay in the documented range** (partial). Invariant over operations; witnesses.
Violated by set_int64/new_int64 with negative multiples, new_int of negatives, and after a refused unmarshal;
C66_careful_partial covers all other call sequences. In `Int`: `violated_set_int64`, `violated_new_int`,
`violated_unmarshal`, `violated_jacobi`, `careful_partial`.

**C67 RandStream mixes all working readers and obeys the Stream contract** (partial). Readers as partial
functions; keyed stream. The contract about consecutive calls is violated (C67_contract_violated); the other
parts are proved. In `Random`: `fails_iff`, `output`, `contract_violated`, `key_stream_reuse_partial`.

**C68 Encoded scalars determine the scalar** (partial). Marshalling reduces, unmarshalling does not. Violated
for scalars decoded from non-canonical encodings; the partial theorem covers reduced ones. In `EdScalar`:
`marshal`, `round_trip`, `unmarshal`, `violated`, `injective_partial`, `constants`.

**C69 Multiplication by every value a Scalar can hold** (partial). Top digit of the recoding, exact result.
Violated for scalars with a top signed digit above 8 (C69_violated); C69_mul_partial is the exact result for
all 32-byte strings. In `EdPoint`, `EdUnreduced`: `violated`, `mul_partial`, `mul_base_partial`,
`exact_partial`.

**C70 Scalars act linearly on points** (partial). Order of the curve; witness of order two. Violated outside
the prime-order subgroup; C70_action_partial is the law inside it. In `EdPoint`, `EdSuite`: `violated`,
`action_partial`, `exact_partial`.

**C71 Decoding of points is strict** (partial). Decoding against encoding of the result. Violated (sign bit on
x = 0, unreduced y); C71_strict_partial is the exact condition. In `EdPoint`: `violated`, `strict_partial`,
`unique_partial`.

**C72 A refused decoding leaves the receiver unchanged** (partial). State left behind by `set_bytes`.
Violated: x, y and z are overwritten before the check; C72_failed_partial says what survives. In `EdPoint`:
`violated`, `failed_partial`.

**C73 The documented group order is right** (proved). Counting argument for 8L. Counting argument: injection
of points into y and parity gives at most 2p points; the order is a multiple of 8L. In `EdPoint`: `order`,
`base_injective`.

**C74 Enough qualified dealers suffice for a key** (partial). Exact condition; witness runs. Violated by a
withheld deal and by a polynomial of higher degree; C74_finishes_partial is the exact condition. In
`DkgPedersenConfig`: `finishes_partial`, `violated_withheld`, `violated_degree`.

**C75 qualified_shares lists exactly the holders that answered and did not complain** (proved). Filter over
the response map. In `DkgPedersenQual`: `qualified_shares`, `approved`.

**C76 Responses counted for a dealer answer the deal of that dealer** (partial). Invariant of responses after
a deal; witness. Violated when the response arrives before the deal; C76_after_deal_partial covers responses
that arrive later. In `DkgPedersenQual`: `after_deal_partial`, `violated`.

**C77 No message makes a participant of the DKG panic** (partial). Panic conditions call by call over
reachable states. Violated by an unsigned justification and by signed deals; C77_response and
C77_justification are complete, C77_deal_partial bounds the cases for deals. In `DkgPedersenPanic`:
`response`, `justification`, `deal_partial`, `violated_forged`, `violated_deal`.

**C78 DKG: a refused resharing deal does not count** (partial). State after a refused deal; witness. Violated;
what is stored after a refusal is proved in general. In `DkgPedersenReshare`: `rejection_not_stored`,
`violated`.

**C79 DKG: the reshared key does not depend on hash map order** (partial). Permutation of the fold; witness.
Violated when a qualified deal is missing; order independence proved otherwise. In `DkgPedersenReshare`:
`order_partial`, `violated`.

**C80 Rabin DKG: finished means the key can be computed** (partial). Invariant of reachable states; witness
run. Violated by commitments of another length; C80_finished_partial assumes equal lengths. In `DkgRabinMore`,
`DkgRabinViol`: `finished_partial`, `violated`.

**C81 Rabin DKG: finished is final** (partial). Preservation over histories; witness run. Violated by a forged
complaint; other messages keep a finished participant finished; C81_stuck: after a second complaint
reconstruction never happens again. In `DkgRabinMore`, `DkgRabinViol`: `stays_finished_partial`, `stuck`,
`violated`.

**C82 Rabin DKG: a timeout lets a qualified dealer go on** (partial). Invariant on dealers' aggregators over
histories; witness. Violated: the dealer is not told of the timeout; one silent participant blocks the dealer
for good (C82_silent_participant_blocks). In `DkgRabinMore`, `DkgRabinViol`: `silent_participant_blocks`,
`secret_commits_partial`, `violated`.

**C83 Rabin DKG: signatures of the second phase are bound to the session** (partial). Injectivity of the
signed encodings, for two inputs that do not collide under the hash (`Spec.Apart`); witness replay. Violated:
the session id is not hashed in secret commitments and revealed shares. What the three signatures do cover is
proved. In `DkgRabinBind`: `complaint_signed`, `commits_signed`, `reconstruct_signed`, `replay_commits`,
`replay_reconstruct`, `violated`.

**C84 Rabin DKG: a qualified deal has the approvals the threshold asks for** (partial). Decision logic;
witness. Violated: the threshold in the dealer's message is used; C84_approvals_partial is the exact
condition. In `DkgRabinBind`: `approvals_partial`, `violated`.

**C85 Rabin DKG: no message makes a participant panic** (partial). Panic conditions call by call over
reachable states. Violated by an unsigned justification, by empty commitments, by a complaint and by a deal
with a short nonce. Exact conditions for justifications, commitments and complaints; responses and revealed
shares never panic; C85_deal_partial bounds the cases for deals. In `DkgRabinPanic`: `response`,
`reconstruct`, `justification`, `commits`, `complaint`, `deal_partial`, `violated_unsigned`,
`violated_commits`.

**C86 A Schnorr signature made with edwards25519 is accepted, byte for byte** (partial). Exact acceptance
condition; witness point of the subgroup checked by the kernel; counting by an injection. Violated: the nonce
(or key) whose point has y = p-9 gives refused signatures for every message and hash function
(C86_violated_nonce, C86_violated_key). Exact condition in C86_verifies_partial; C86_rare_partial: at most 435
residues fail. In `EdSig`: `verifies_partial`, `violated_nonce`, `violated_key`, `violated`, `rare_partial`.

**C87 EdDSA keys and signatures are those of RFC 8032** (proved). Refinement of the byte functions to RFC
8032. Against Spec/Ed/Rfc8032.lean, written from the RFC. In `EdSig`: `rfc_key`, `rfc_sign`.

**C88 EdDSA verification is that of RFC 8032** (partial). Exact acceptance condition against RFC 8032;
witness. Soundness proved (C88_sound). Completeness violated: a hash function with a nonce whose point has y =
p-9. Exact condition for keys in the subgroup in C88_exact_partial; for RFC signatures in
C88_rfc_signature_partial. In `EdSig`: `sound`, `exact_partial`, `rfc_signature_partial`, `violated`.

**C89 Schnorr and EdDSA verification accept the same signatures** (proved). Two exact acceptance conditions,
equal. Both acceptance conditions are characterised exactly. In `EdSig`: `agree`, `same_signature`.

**C90 An accepted EdDSA signature cannot be altered** (proved). From the exact acceptance condition and the
order of the base point. From the exact acceptance condition. In `EdSig`: `unique`, `points`, `no_panic`.

**C91 The edwards25519 suite keeps what the generic protocol code relies on** (proved). Decoding inverts
encoding by the theorems on `Ext.setBytes`; linearity from the order of the base point. The suite is built
from the functions of Model/Ed (Spec/Ed/Suite.lean); C91_operations ties it to them, C91_sign and C91_verify
tie the generic signatures to the byte-level ones. In `EdSuite`: `contract`, `operations`, `sign`, `verify`,
`eddsa_verify`.

**C92 On edwards25519, shares that pass the public check recover the committed secret** (partial). The
commitments multiplied by 8 lie in the subgroup, a vector space over the scalars, where Lagrange interpolation
in the exponent applies. Violated: the commitments are not checked to lie in the prime order subgroup; with a
point of order two added to both commitments every verifier with an even index accepts. Proved: the recovered
secret is right up to multiplication by the cofactor 8, and exactly right if the commitments lie in the
subgroup. In `EdSuite`: `cofactor_partial`, `violated_middle`, `violated`.

**C93 Distributed keys and threshold signatures come out right on edwards25519** (proved). Instances of C33,
C39 and C17 for the suite of C91; usable keys and nonces are characterised by coordinates, linearity on the
second generator follows from C59. The protocol theorems instantiated with the edwards25519 suite, whose
contract is C91; the premise on keys and nonces is exactly that the library accepts their points (y < p - 217
and not of small order). For the Rabin DKG the second generator is any point that Point::pick can return. In
`EdRuns`: `pedersen_dkg`, `pedersen_start`, `rabin_dkg`, `rabin_start`, `dss`.

**C94 On edwards25519 a threshold signature made from checked partial signatures verifies** (partial). Stored
partial signatures satisfy the equation of C18 for any action of the scalars; multiplied by 8 it is one in the
subgroup, where C92's interpolation applies. The counterexample follows two honest signers through the model.
Violated: neither the DKGs nor the signer check that commitments lie in the prime order subgroup; with a point
of order two in the long-term key (see C92) and honest signers the signature is refused for all messages with
an odd challenge (exact condition proved). Proved: the signature always satisfies the equation multiplied by
the cofactor, and verifies if the commitments lie in the subgroup. For shares and partial signatures sent as
unreduced bytes on edwards25519 see C151, C152. In `EdDss`: `cofactor_partial`, `violated_torsion`,
`violated`.

**C95 On edwards25519 the shared secret of a Diffie-Hellman exchange depends on the private key** (partial).
Order of the received point times 8; the ciphertext is built with the neutral element in place of the
ephemeral key. Violated: dh_exchange and ecies do not reject points of small order; one ciphertext opens under
every private key. Proved: the exact condition, the received point is not of small order. In `EdDh`:
`exact_partial`, `small_partial`, `violated_ecies`, `violated_recipient`, `violated`.

**C96 The variable time multiplication gives the product of the constant time one** (partial). The recoding by
induction over the digit positions (value, oddness and range of digits); the loop by induction over the digits
with the group law of C59; the constant time side from C56. Violated: for scalars of 2^255 and more the
constant time routine is wrong (C69), the variable time one is not; scalar 2^255+2^254 gives the neutral
element with one and 3*2^254*B with the other. Proved for all scalars below 2^255; the recoding is proved for
all 32-byte scalars, no panic for any. In `EdVartime`: `slide`, `no_panic`, `agree_partial`, `violated_big`,
`violated`.

**C97 The order on points is consistent with their equality** (partial). Comparison of limbs is lexicographic;
equality is equality of encodings, which C54 turns into equality of the represented points. Violated: the
derived order compares limbs of the projective representation, equality compares encodings; the neutral
element obtained by two ways is == but not cmp Equal. Proved: cmp Equal implies ==, exact conditions for both,
equal points have equal hashes. In `EdSerde`: `cmp_exact`, `eq_exact`, `hash`, `cmp_eq_partial`,
`violated_null`, `violated`.

**C98 Points read with serde behave like the points they compare equal to** (partial). bincode of a point is
161 bytes of fixed layout; the counterexample sets the coordinate T of the base point to 0 and follows the
addition formula. Violated: serde fills in the coordinates unchecked; the base point with T = 0 compares equal
to the base point and marshals to the same bytes but gives other sums. Proved: round trip, exactly which
strings are accepted and that nothing is checked; congruence for points that are valid. In `Bincode`,
`EdSerde`: `reads_exact`, `roundtrip`, `exact_partial`, `congr_partial`, `violated_sum`, `violated`,
`violated_congr`.

**C99 A generated private key keeps its meaning when stored and read back** (partial). Clamping from C60,
marshalling from C68; arithmetic modulo 8 with L = 5 mod 8 shows the reduced key is never a multiple of 8.
Violated for every generated key: marshal_binary reduces modulo the group order, after which the key is never
a multiple of 8, so it no longer clears points of small order although the generated one does. Proved: the
pair is right, the reloaded key has the same public key, and the exact condition on a point for both keys to
agree. In `EdKeyPair`: `failure`, `pair`, `reload_public`, `reload_exact_partial`, `violated_always`,
`violated`.

**C100 An honest resharing hands the same key to the new group** (proved). Invariant of a new node over any
history (one verifier per old node, its deal and the responses stored so far) and of a leaving node (its
aggregators); the final share from C34_honest, certification from C36. Honest nodes only; deviating dealers
are C34/C78. Assumes lawful encryption primitives and a deal codec that round-trips, as in C33. Justifications
do not occur in an honest run. In `DkgReshareHonest`: `leaving`, `honest_run`, `recover`.

**C101 Binary form of every message: layout, and reading accepts exactly that** (proved). Combinators for the
derived serialisation with a predicate Exact (reads exactly what writing gives, followed by anything) that
every combinator preserves; each message is a combination. bincode itself is not in the repository; its
documented format is what is modelled, together with the derived Serialize/Deserialize. Generic in the forms
of scalars and points, instantiated with those of edwards25519. In `Bincode`, `State`: `deal`, `deal_rabin`,
`encrypted_deal`, `response`, `justification`, `justification_rabin`, `dist_key_share`,
`dist_key_share_rabin`, `dkg_deal`, `dkg_deal_rabin`, `dkg_response`, `dkg_justification`, `secret_commits`,
`complaint_commits`, `reconstruct_commits`, `edwards25519`, `signature_share`.

**C102 A message has one binary form only** (partial). Counterexample with one byte appended; exact
characterisation from C101. Violated: bytes after the message are ignored. The exact characterisation is
C102_exact_partial. In `Bincode`: `violated_trailing`, `violated`, `exact_partial`.

**C103 Messages that compare equal have the same binary form** (partial). Counterexample from C97 (the neutral
element and its sum with itself); the converse from injectivity of the form. Violated: points are written with
their projective coordinates, and equal points may have different ones; also the hash of a justification
differs for equal justifications. What holds: equal bytes mean equal messages. In `Bincode`: `bytes_partial`,
`violated`, `violated_hash`.

**C104 A signed hash determines the message** (partial). Counterexample moves a byte between session id and
index; positive part by cancelling prefixes of equal length. Violated for justifications: the session id is
hashed without its length, next to the index. Holds for session ids of equal length, for responses and for DKG
deals. In `BincodeSigned`: `violated_justification`, `violated`, `justification_partial`,
`justification_rabin_partial`, `response`, `dkg_deal`.

**C105 A session id determines dealer, verifiers, commitments and threshold** (partial). Counterexample moves
a point from the verifiers to the commitments; the exact part compares the concatenated encodings. Violated:
there is no boundary between the list of verifiers and the list of commitments. The exact characterisation is
C105_exact_partial; it holds when the number of commitments is the threshold. In `BincodeSigned`:
`violated_boundary`, `exact_partial`, `honest_partial`, `violated`.

**C106 Honest DKGs on edwards25519 with deals in their binary form** (proved). Reads (a weaker Exact) for the
form of abstract scalars and points discharges the codec assumption of C93 for every dealer that new_dealer
returns. Assumes lawful encryption primitives and a hash shorter than 2^64 bytes. One choice of coordinates
per point stands for all; coordinates that are not on the curve are refused in this instance (see C98 for what
the code does). In `EdBincode`: `pedersen_dkg`, `rabin_dkg`.

**C107 Values written to a stream are read back in order** (partial). Induction over the list of values with
the invariant that the rest of the stream is the rest of the encodings; counterexample by evaluation of the
little-endian encoding. Violated: a little-endian modular integer is written without padding, so 5 and 1
modulo 1000 are read as 261, silently. Holds for every list of points, scalars and big-endian integers
(C107_round_trip_partial, C107_edwards25519). In `EdMarshal`: `round_trip_partial`, `edwards25519`, `read`,
`violated_silent`, `violated`.

**C108 unmarshal_from an XOF picks a valid value** (partial). The exact result is case analysis on set_bytes
of the 32 bytes taken; counterexamples use constant XOF streams. Violated: the code takes the next 32 bytes
once; a point may be refused and a scalar is stored unreduced. C108_exact_partial says exactly what is
returned. In `EdMarshal`: `exact_partial`, `violated_point`, `violated_scalar`, `violated`.

**C109 An honest dealer is qualified whatever the others send** (partial). Invariant VR of the verifier of the
honest dealer (only approvals stored; either no deal and no session id, or the dealt deal with the slots of
participant and dealer filled), preserved by every call with an arbitrary message; counterexample by
evaluation of a run with one complaint. Violated: one false complaint by anybody keeps an honest dealer out
although it justifies itself. Holds whenever there is no authentic complaint about the dealer, for other
dealers and the own deal, with arbitrary other messages in any order; assumed are only that nothing else
decrypts under the dealer's signature and that the participant's own answers are not fed back.
C109_replayed_answer shows what happens otherwise: the participant never answers the deal. In `DkgRobust`:
`honest_dealer_partial`, `own_dealer_partial`, `replayed_answer`, `violated`.

**C110 A share is opened only after its holder complained about it** (partial). Invariant of the dealer's
aggregator over histories (a response is stored iff a signed one of the session was delivered), the decision
then follows from one unfolding; acceptance from the Lagrange-free check of an honest share; counterexample by
evaluation of one call on a leaving node. Violated for the old nodes that leave in a resharing: their
aggregators never learn a session id, so a complaint about another dealer or session, sent again under the
leaving node's number, makes it publish the share of a holder that never complained about it, in an unsigned
justification. Proved as an equivalence for the dealers of both VSS variants, and for every participant of a
Rabin DKG, of a fresh Pedersen DKG and for nodes that stay in a resharing; C110_leaving_partial says what
leaving nodes do check. In `Justify`: `pedersen_vss`, `pedersen_accepted`, `pedersen_signed`, `rabin_vss`,
`rabin_accepted`, `dkg_partial`, `leaving_partial`, `violated`, `rabin_dkg`.

**C111 The hexadecimal text of a modular integer reads back** (partial). Induction over the bytes: hexadecimal
digits are a numeral in base sixteen whose Horner value is that of the bytes; the reading side is the model of
from_str_radix. Violated for negative values, which new_int, new_int64 and unreduced subtraction produce: the
sign is not printed. C111_exact: the text reads back exactly when the value is not negative; C111_prefix: what
to_string prints is refused by set_string in every base up to 33. In `Text`: `hex_partial`, `exact`,
`violated`, `reduced`, `same_text`, `prefix`.

**C112 Integers given as text have the value of the numeral** (partial). Induction over the digits of the
numeral, with Mathlib's `Nat.ofDigits` as the meaning; counterexamples by evaluation. Violated twice: without
a denominator the value is not reduced, with one the code multiplies instead of dividing. Proved: every
numeral in every base has its value (C112_numeral, C112_digits), bases outside 2..36 panic (C112_base), and
what is computed for fractions. C112_refused: texts with a character that is no digit, and the empty text, are
refused. In `Text`: `numeral`, `digits`, `base`, `kept_partial`, `violated_reduced`, `fraction_partial`,
`violated_fraction`, `refused`.

**C113 Printed points and scalars identify and restore the object** (partial). Hexadecimal encoding is
injective by a reading function; the rest follows from C57 and C68. Violated in the last part only: the text
of an unreduced scalar shows the bytes held, the encoding the reduced ones (C113_scalar_exact: they agree
exactly for reduced scalars). The rest is proved for all points and scalars. In `Text`: `point`,
`point_reads_back`, `scalar`, `scalar_exact`, `violated`.

**C114 Every share index has an evaluation point of its own, and it is never the secret** (partial). The
coordinate arithmetic by omega on the two's complement, reconstruction by Lagrange interpolation over
arbitrary distinct points, the dictated result from the vanishing of all other weights; equality with the
idealised model by induction over the collecting loop. Violated for the one index usize::MAX: its point is
zero, so eval(usize::MAX) is the secret, and a share with that index that takes part in a reconstruction
dictates the result. Everything else is proved with the machine's casts and additions, and for indices below
2^63-1 the machine functions are proved equal to those of Model/Poly.lean (C114_idealised), which the other
properties use. In `Index`: `eval`, `distinct`, `recover_secret`, `recover_commit`, `violated_max_share`,
`violated`, `secrecy_partial`, `violated_dictated`, `idealised`.

**C115 Jacobi symbols, machine words and comparisons of modular integers** (partial). The external Jacobi
function by its contract (Mathlib's jacobiSym), Euler's criterion through the Legendre symbol; uint64 as the
residue modulo 2^64 by induction over the bytes. Violated for jacobi: -1 is stored outside the documented
range 0..m-1 and its encoding is that of 1, and for composite moduli the value 1 does not mean square. For odd
primes the three values are proved to tell the cases apart; int64, uint64 and the order hold in full. jacobi
of num-bigint-dig is external and taken by its contract. In `IntMore`: `violated_range`, `violated_composite`,
`jacobi_panics`, `jacobi_prime_partial`, `jacobi_nonsquare`, `jacobi_mul`, `jacobi_encoding`, `uint64`,
`int64`, `int64_round_trip`, `order`, `equal_residues`, `equal_ignores_modulus`.

**C116 A random distributed key signs only one message** (partial). Linear algebra on the two equations, with
recover_secret and signature from C01 and C17 for the consequences; the hiding statement by giving the
matching random polynomial. Violated: nothing records the use of the random key, the session id does not cover
the message, and DSS.msg is a public field. Proved consequences: the share of the participant follows from its
two partial signatures, the long-term secret from t such pairs or from the two finished signatures alone. What
holds: a partial signature for another message is refused unless the challenges agree or the share is zero
(C116_not_mixed, an equivalence), and the partial signatures for one message are compatible with every
long-term polynomial. In `DssReuse`: `violated`, `always_signs`, `same_session`, `share_leaks`,
`secret_leaks`, `signatures_leak`, `not_mixed`, `one_message_hides_partial`.

**C117 Printing an object does not print its secrets** (partial). The text of an object equals the text of its
image under hide, which maps scalars to Unit; EdDSA: decimal lists are uniquely readable, by induction on the
list. Holds for every object listed except EdDSA keys: their derived Debug prints secret, seed and prefix as
decimal bytes, from which they are read back (C117_eddsa_reveals). PriPoly::string() prints all coefficients
on purpose (C117_string_reveals). Points and suites print through arbitrary text functions. In `Display`:
`shares`, `vss_pedersen`, `vss_rabin`, `dkg_pedersen`, `dkg_rabin`, `dss`, `eddsa_reveals`, `violated_eddsa`,
`string_reveals`.

**C118 Saved state reads back** (proved). Combinators for pairs, vectors, options and maps, each preserving
'reads back up to a relation'; maps by permutation of the entries and insertion one by one. Proved for the
bincode format; points may be written in any coordinates (on edwards25519 they come back as the same group
element). A new dealer always meets the conditions on sizes. In `State`: `poly`, `vss_pedersen`, `vss_rabin`,
`config`, `dkg_pedersen`, `dkg_rabin`, `dss`, `new_dealer_fits`, `edwards`.

**C119 Every participant is dealt to exactly once** (proved). Induction over the loop of `deals` gives the map
it returns entry by entry; the state of the generator does not matter because the parts used never change (the
evolution lemma). The count by removing the own index from the list of dealers. Proved for every reachable
state of both generators. In `Deals`: `deals`, `opens`, `expected_deals`, `rabin_deals`.

**C120 A correct dealer of the Rabin generation is qualified whatever the others send** (partial). Invariant
over all histories about the one verifier for the correct dealer (`Sound`: deal stored, dealer not marked,
nobody of the honest set complains): every call keeps it, a timeout only once the honest set has answered; the
first deal establishes it. The violation is a run of three participants, and `C120_forged` says for every
reachable state with a stored complaint that one message without signature ends it for good. The intended
statement is violated: a justification is processed without looking at its signature or session id, so one
unsigned message with an invalid deal disqualifies a correct dealer at every participant that holds a
complaint about it, including the complaints that set_timeout fills in for silent participants (C120_violated,
and C120_forged for every state). Proved for all histories in which the justifications about the dealer carry
deals that it made, for other dealers and for the participant's own deal. In `DkgRabinRobust`:
`honest_dealer_partial`, `own_dealer_partial`, `forged`, `violated`.

**C121 Shares of different periods do not combine** (proved). `renew` applied to the shares of two polynomials
gives the share of their sum, so a chain of renewals is a chain of polynomials with the same constant term; by
induction over the periods these are chosen, or determined, period by period with C05. For a resharing the old
polynomial is chosen with C05 and then the random coefficients given to `new_dealer` by each old holder that
was not seen. About the shares only: the public commitments determine the key up to discrete logarithms (for
Rabin commitments see C30). In `Proactive`: `renewals_hide`, `renewals_unique`, `resharing_hides`.

**C122 What the constructors accept** (proved). Case analysis of each constructor against conditions stated
with membership, first occurrence and arithmetic; for `new_dist_key_handler` one equivalence for each possible
error, one for success, and no panic (the loop of `init_verifiers` by induction). The default threshold (0)
stands for half of the participants rounded up and is refused in groups of one or two
(C122_default_threshold). new_dss checks nothing but the key, new_dist_key_handler does not check the
threshold of nodes that do not deal. In `Setup`: `new_verifier`, `new_dealer`, `new_generator_rabin`,
`new_dss`, `new_handler`, `default_threshold`.

**C123 Participants that finish agree on the key** (partial). A simulation between the records that two
participants keep about the same dealer (`Like`: equal up to the two answers that are still on their way):
every message about the dealer preserves it, the two answers close it, and certification depends only on what
it fixes. The violations are complete runs of two correct participants over a broadcast channel, with the
third withholding one deal. Violated in both: a dealer that keeps its deal from one participant is qualified
for the others but not for this one, and no message tells it so (C123_violated, C123_violated_pedersen: three
participants, threshold 2, both correct ones finish with different keys). C123_rabin_partial,
C123_pedersen_partial: two participants that accepted deals of a dealer with the same threshold and session
id, and hear the same about it, agree whether it is qualified, whatever these messages are. In `Agreement`,
`AgreementPedersen`: `violated`, `rabin_partial`, `violated_pedersen`, `pedersen_partial`.

**C124 Data encrypted to a shared key is decrypted by any t holders of shares** (partial). The two functions
of enc_test.rs on bytes, the variants B and C of dkg_test.rs in the group. Interpolation at zero is a sum of
multiples by Lagrange coefficients; these sum up to one, and to the secret when weighted with the shares; both
points of a genuine ciphertext are in the subgroup, where scalars act linearly. The violations evaluate the
interpolation for two of three holders. Proved for everything el_gamal_encrypt returns: C124_round_trip,
C124_shared_key, C124_pedersen_dkg (after an honest key generation). Violated for pairs of points that nobody
encrypted, which unmarshal_binary accepts: with a point of order two the result depends on which holders take
part (C124_violated_subsets), and a partial decryption of a point of order eight gives away the three low bits
of the share (C124_violated_leak). C124_cofactor_partial: right up to a point of order at most 8, exact in the
subgroup. In `EdElGamal`: `round_trip`, `encrypt_returns`, `partials`, `reencrypted`, `partial_model`,
`shared_key`, `cofactor_partial`, `violated_leak`, `violated_subsets`, `violated`, `pedersen_dkg`.

**C125 Verification returns in every build, also with overflow checks** (partial). The three tests and the two
verifications once more with checked subtraction on u16. Each test is characterised by cases on its loop;
verification follows branch by branch. That the checking build rejects nothing else is C125_accepts. Violated:
with overflow checks has_small_order panics exactly on points of small order and never answers true
(C125_small_order_point), is_canonical of points panics instead of answering false (C125_point_canonical),
is_canonical of scalars panics for every canonical scalar from 2^252 on (C125_scalar_canonical_panics). One
fixed signature makes both verifications panic under every key and message (C125_null_signature).
C125_verify_refines: otherwise the answers agree. C125_accepts says exactly what is still accepted. In
`EdChecked`: `small_order`, `small_order_point`, `point_canonical`, `scalar_canonical`,
`scalar_canonical_panics`, `verify_refines`, `accepts`, `rejections`, `null_signature`,
`null_signature_wrapping`, `violated`, `accepts_partial`, `honest_partial`, `violated_honest`.

**C126 On edwards25519, t neighbouring holders vouch for the public key** (proved). The commitments times the
group order have order dividing eight and, since scalars act as integers, their evaluation is an integer
polynomial. One with t coefficients that vanishes at t places of a progression vanishes on all of it
(differences, induction on t); values depend on the place modulo eight only. In `EdNeighbours`.
C126_progression and C126_neighbours: finite differences of the commitments multiplied by the group order
vanish along the progression. C126_pair: exact for two holders; C126_pair_attack constructs the commitments
where the condition fails. C126_even: commitments outside the subgroup that every holder accepts. In
`EdNeighbours`: `progression`, `neighbours`, `pair_attack`, `pair`, `even`.

**C127 Participants certified by everybody hold shares of one key, whatever a dealer who is not caught sent**
(partial). The invariant of the honest run (`DkgPedersenRun`) is proved for any dealers that pass the checks
(`Net.Convincing`, `Net.Fair`); the honest run is the case where all are honest. In `DkgPedersenHonest`
(C127_fair_run) and `DkgPedersenFair`. Violated: a dealer who appends a zero commitment satisfies everybody,
all participants are certified, and none of them ever gets a key (C127_padding, C127_violated). C127_fair_run
says exactly what they get: a key if and only if all dealers sent the same number of commitments, and then the
sums. C127_share_checks, C127_recover: then the shares lie on the commitments and recover the key. C127_cheat:
other commitments are noticed only by a participant whose share is not on them. In `DkgPedersenFair`,
`DkgPedersenHonest`: `cheat`, `share_checks`, `recover`, `padding`, `violated`, `fair_run`.

**C128 On edwards25519, enough participants of a finished DKG hold the private key** (partial). C127 on the
curve combined with C126; the attack is a cheating dealer of C127 with shifted commitments. In `EdFair`.
Violated: a participant with an odd index adds the point of order two to its first two commitments; all
participants with even indices, a majority, are certified and finish with a key to which no private key
belongs (C128_attack, C128_violated). C128_progression_partial: they agree on the commitments, every selection
recovers the key up to a point of small order, and neighbours (or a progression with gcd(d,8) dividing a+1)
recover the key itself. In `EdFair`: `progression_partial`, `attack`, `violated`.

**C129 Silent participants do not keep the others from a common key after a timeout** (proved). The invariant
of the honest run for arbitrary schedules, plus an invariant for the timeout flag and the threshold of
aggregators without a deal (`run_flag`), gives the exact qualified set; C33_dist_key_share_iff gives the key.
In `DkgPedersenSilent`. C129_qualified is the exact rule for any schedule of messages, timeouts anywhere, and
any convincing dealers. C129_silent: what participants in A get, both ways. C129_blocked: no key without a
timeout, and none without a threshold given to the constructor, because the aggregators of silent dealers then
have threshold 0 and count as qualified without a deal. C129_recover: the shares recover the key. In
`DkgPedersenSilent`: `qualified`, `silent`, `blocked`, `recover`.

**C130 A signature accepted under a key was made with its private key, with one nonce** (proved). The R part
of an accepted signature lies in the subgroup because the key does; its discrete logarithm is the nonce and
the equation determines s. In `EdSigners`. C130_only_signer, C130_only_signer_eddsa: exact, byte for byte,
with a unique nonce. C130_count: a bijection with the usable nonces. C130_second_message: exact. Usable means
not a multiple of the order and y coordinate below p - 217 (C86). In `EdSigners`: `only_signer`,
`only_signer_eddsa`, `second_message`, `count`.

**C131 A stored EdDSA private key is read back as it was, and a damaged one is refused** (partial). The
functions of `eddsa_sig.rs` on bytes are in `Model/Ed/Eddsa`; the round trip follows from C87. Also there: the
private key is computed from one signature of a converted key pair (`C15_edwards25519`). Violated as intended
(C131_violated): any 64 bytes are read. C131_read_exact_partial says exactly for which bytes reading and
writing are inverse; C131_store is the round trip of every seed; C131_generate and C131_generated_signs tie
the generated key to RFC 8032. In `EdKeys`: `generate`, `generated_signs`, `read`, `store`,
`read_exact_partial`, `mismatch_accepted`, `violated`, `pair_panics`, `eq`.

**C132 Before the commitments are revealed, fewer than t participants of the Rabin key generation can still
end up with any key** (proved). From `C30_view_hides_secret` for the dealer `j` the run of `j` is replaced by
one with another secret (`RNet.choose`) whose session, commitments, aggregator and deals for the coalition are
the same; the messages and states are then equal, and `C39_honest_run` gives the key. C132_hidden has the full
list of what stays the same; C132_any_key adds the key at the end of complete runs; C132_answers covers every
sequence of responses to the dealer in which only members of the coalition complain. Encryption and signatures
are functions of the deal and the drawn nonces, so equality is byte for byte. In `DkgRabinSecrecy`,
`EdSecrecy`: `answers`, `hidden`, `any_key`, `edwards25519`.

**C133 No participant of the Pedersen key generation can choose properties of the key** (partial). `foresee`
decrypts the deals sent to one participant and adds up the first commitments; `C33_honest_run` gives the key,
and the deals of the others do not depend on the participant's own choice. Violated as intended
(C133_violated). C133_foreseen says what the key is in terms of the deals one participant receives,
C133_steered that this participant gets every property that one of its candidate secrets gives,
C133_open_partial that the secret of a participant nobody has looked at still decides among all keys. Compare
C132 for the Rabin variant. In `DkgPedersenBias`, `EdSecrecy`: `foreseen`, `open_partial`, `steered`,
`violated`, `edwards25519`.

**C134 What fewer than t parties see is equally likely for every secret** (proved). A polynomial with constant
term `c` that vanishes at the coalition is added to the secret polynomial and its `-h⁻¹` multiple to the
blinding one. This translation is a bijection on the draws (`translate`), keeps the commitments
(`commitsOf_shift`) and the deals of the coalition; `sameView_choose` carries it to the key generation, and
`Nat.card_congr` to the counts. C134_shares, C134_dealer_count and C134_generation_count give the counts;
C134_dealer and C134_generation the one-to-one correspondence of draws behind them; C134_edwards25519 the
curve. The draws are lists of t-1 and t scalars, taken to be uniform and independent; the generator behind
pick is not modelled as a distribution. In `EdSecrecy`, `Secrecy`: `edwards25519`, `shares`, `dealer`,
`dealer_count`, `generation`, `generation_count`.

**C135 A qualified dealer cannot stop the Rabin key generation by what it reveals** (partial). Strong
induction over the number of public messages heard, with an induction over the calls inside: `pendingOf` holds
only messages of distinct faulty participants (withheld) or of participants whose share agrees with the
revealed commitments (wrong), so `RecoverPriPoly` never has t shares. Lagrange interpolation of point
polynomials bounds the participants that agree. Violated as intended (C135_violated). C135_withheld says that
a dealer that reveals nothing is never reconstructed and that nobody finishes, for all executions in which
fewer than t participants are faulty, C135_wrong the same for wrong commitments as long as the faulty do not
help, C135_wrong_dealt derives its counting condition from the degree of the polynomials. In
`DkgRabinWithheld`: `withheld`, `wrong`, `wrong_dealt`, `violated`.

**C136 Silent participants do not keep the others of the Rabin key generation from a key after a timeout**
(partial). `C82_silent_participant_blocks` for every correct dealer, so by unforgeability their commitments
are withheld in the sense of C135; `withheld_blocks` and the count of faulty dealers exclude a finished state.
Violated as intended (C136_violated). C136_blocked says, for all executions in which fewer than t participants
are faulty, that one participant that answers no deal of a correct dealer stops everybody. The calls are those
of DistKeyGenerator; a caller that reaches into its public field dealer and calls set_timeout there is outside
of them. Compare C129 for the Pedersen variant, where the others get a key. In `DkgRabinSilent`: `blocked`,
`violated`.

**C137 Enough correct participants always get the distributed signature** (proved). Invariant over calls:
indices marked as received are covered by `partials`, and the own index once signed (`Marked`); then C17. The
sessions are built from C33 key shares, on edwards25519 with the RFC 8032 check. C137_kept: a partial
signature of a correct participant, once delivered, leaves its index covered. C137_signature: with t correct
ones signature returns the group signature. C137_generated and C137_edwards25519 start from two key
generations. In `DssLive`: `kept`, `signature`, `group`, `generated`, `generated_rabin`, `edwards25519`.

**C138 Correct participants of a key generation that report success hold the same key** (partial). the
invariants of the honest runs (C33, C79) determine the qualified set at every point, `heardAll`;
`C33_dist_key_share_iff` and its Rabin counterpart then give the key. The counterexamples leave out everything
about dealer 2. Violated as intended for both generations (C138_violated, C138_violated_pedersen). C138_key
and C138_key_pedersen give the key after any part of an honest run, C138_finished_iff when finished() holds,
C138_nondealers that t dealers are enough for all to get one key, C138_certified_pedersen and
C138_certified_key_pedersen that waiting for certified() avoids the problem. In `DkgPedersenEarly`,
`DkgRabinEarly`: `key_pedersen`, `certified_pedersen`, `certified_key_pedersen`, `violated_pedersen`,
`qualified`, `finished_iff`, `key`, `nondealers`, `recover`, `violated`.

**C139 All exported scalar types of edwards25519 compute modulo the group order** (partial).
`Model/Ed/ScalarTypes.lean`: the factored reduction is a limb program like that of `Scalar`; the interval
analysis and the weights of C49 apply. The operations return the buffer and the local array, the buffer is
unchanged. Violated as intended (C139_violated, C139_violated_simple, C139_violated_factored). C139_scalar,
C139_simple_partial, C139_simple_sub, C139_simple_sub_iff, C139_factored and C139_factored_iff say exactly
what each type computes and when it is right; C139_factored_limbs that the forgotten limbs have the right
residue and are computed without overflow; C139_factored_unreduced that storing them would not repair the
type; C139_test_passes that the existing test cannot fail. In `EdScalarTypes`: `scalar`, `simple_partial`,
`simple_sub`, `simple_sub_iff`, `factored`, `factored_iff`, `factored_limbs`, `factored_unreduced`,
`test_passes`, `violated_factored`, `violated_simple`, `violated`, `rest`.

**C140 Every exported scalar type has one binary form** (partial). the bincode form of an array of 32 bytes
(`Model/Bincode.lean`) against `scMarshal`. Violated as intended for SimpleCTScalar and FactoredScalar
(C140_violated_write, C140_violated_read); C140_scalar and C140_others_partial characterise what is written
and read, C140_round_trip what is read back. In `EdScalarTypes`: `scalar`, `others_partial`, `round_trip`,
`violated_write`, `violated_read`.

**C141 A modular integer read with serde is in its documented range** (partial). `Model/IntSerde.lean`: the
derived form of `Int` over the form of a `BigInt` (sign and base 2^32 digits); round trip from `Reads` of the
parts, the rest from truncated division. Violated as intended (C141_violated, C141_zero_modulus).
C141_round_trip and C141_inj are the round trip, C141_range_partial what holds of the range, C141_reads_iff
exactly which bytes are read, C141_add and C141_mul when a result is in range, C141_marshal_panics when
marshal_binary panics on what was read. The format of BigInt is that of the crate num-bigint-dig, modelled
from its documentation. In `IntSerde`: `round_trip`, `inj`, `reads_iff`, `violated`, `range_partial`,
`zero_modulus`, `add`, `mul`, `marshal_panics`.

**C142 A resharing survives silent old and new nodes up to the thresholds** (proved).
`Props/DkgReshareSilent.lean`: the invariant of C100 holds for incomplete histories; with the timeout flag
(`FlagAll`) it gives the qualified set, and C34 the key. C142_qualified says who is qualified after any part
of a run without complaints, C142_qualified_silent with silent nodes; C142_silent is the exact condition for a
key and the key, C142_recover the recovery. With threshold zero and a timeout see C37 and C79: silent old
nodes then count as qualified. In `DkgReshareSilent`: `qualified`, `qualified_silent`, `silent`, `recover`.

**C143 A key stays the same through any number of resharings, also on edwards25519** (proved).
`Props/DkgEpochs.lean`: induction over `Epochs` with C142 as the step; C100 and C142 need only `Suite.Lawful`,
so they hold on the curve. C143_epochs is the induction over the resharings, C143_recover the recovery,
C143_dkg says that the keys of an honest key generation are a start, C143_ed25519 and C143_deals put both
together on edwards25519 with the binary form of the deals. In `DkgEpochs`: `epochs`, `recover`, `dkg`,
`deals`, `ed25519`.

**C144 The group keeps signing under the first public key after any number of resharings** (proved).
`Props/DssEpochs.lean`: C143 gives shares of one polynomial with the first secret, to which C137 applies; the
curve as in C137. C144_holders is about any holders of one polynomial, C144_signature puts it behind any
number of resharings, C144_edwards25519 gives the bytes and RFC 8032. In `DssEpochs`: `holders`, `signature`,
`edwards25519`.

**C145 Resharing keeps the secret from an adversary that moves** (proved). `Props/ReshareSecrecy.lean`:
induction over the periods; moving the shared polynomial along one that vanishes on the coalition and the
drawn ones along multiples of one that vanishes on the next coalition moves the next polynomial in the same
way. C145_shift is the one-to-one correspondence of the draws, C145_count the equal numbers, C145_reached the
sharpness, C145_model says that the resharing of the code deals these shares. In `ReshareSecrecy`: `shift`,
`count`, `reached`, `model`.

**C146 The commitments give away nothing but the public key** (proved). `Props/FeldmanSim.lean`: Lagrange
interpolation at zero and the points of the coalition as coefficients (`SimBasis`), applied to the
commitments; the numbers by the bijection of draws and shares; resharings by induction with C145_count.
C146_commits gives the commitments as a linear function of the public key and the shares, C146_dealer the
correspondence of the draws, C146_count the numbers, C146_generation the key generation, C146_published and
C146_moving the resharings. Over the resharings the coalitions have exactly one holder less than the
threshold. Encryption of the deals is left out. In `FeldmanSim`: `commits`, `dealer`, `count`,
`correct_dealer`, `published`, `moving`, `generation`, `edwards25519`.

**C147 Threshold signing gives away nothing but the signatures** (proved). `Props/DssSim.lean`: the partial
signatures are the values of one polynomial of length t, which is interpolated from s at zero and the shares
of the coalition; commitments as in C146; the numbers by the bijections of draws and shares. C147_message:
each message is a fixed function of the public key, the signature and the coalition's shares; C147_view: so is
everything in any number of sessions; C147_count: the numbers of draws. That (R, s) is the signature that the
code returns is C17_signature and C137_signature. In `DssSim`: `message`, `view`, `count`, `edwards25519`.

**C148 The hashes of shares and of signing sessions determine what was hashed** (partial).
`Props/ShareHash.lean`: encodings of fixed length are split off one by one; exact characterisations and two
counterexamples. Violated twice: indices that differ by a multiple of 2^32, and commitments split differently
between the two keys. Proved: exactly which shares, partial signatures and sessions agree; of partial
signatures that a signer with at most 2^32 participants takes the share is determined. The hash is not assumed
injective, only the two inputs named must not collide. In `ShareHash`: `pri_share_iff`, `pub_share_iff`,
`partial_sig_iff`, `accepted`, `session_iff`, `session_partial`, `violated_index`, `violated_session`.

**C149 ECIES decrypts exactly what it encrypts** (partial). `Props/EciesExact.lean`: decryption is inverted
step by step; on the curve the decoding of points is characterised by y and the parity of x (`edDec_eq_iff`).
Violated on edwards25519 (point of order two; second encoding of the ephemeral point). Proved: exactly what
opens (C149_opens_iff), that encrypt makes exactly the opening ciphertexts which begin with the encoding of a
multiple of the base point (C149_made_iff; on the curve C149_edwards25519_partial), equality in groups of
prime order with strict decoding (C149_strict), that the encoding of the point and the message determine the
ciphertext (C149_one_body), and which points have a second encoding (C149_encodings_partial). AES-GCM enters
as the assumption that opening accepts only what sealing returns. In `EciesExact`: `opens_iff`, `made_iff`,
`strict`, `one_body`, `reencoded`, `edwards25519_partial`, `encodings_partial`, `any_point_partial`,
`violated`, `violated_altered`.

**C150 With t participants left the group still generates its key and signs** (proved).
`Props/DssSilent.lean`: `C129_silent` gives each participant its share of the sum of the polynomials of those
who took part, `C144_holders` the signature from holders of such shares, `C87`/`C88` the verification on the
curve. With fewer than t participants in a generation none of them gets a key (C129_silent). The silent
participants send nothing; participants that send wrong messages are C109, C127, C138. The library itself also
accepts the signature unless it refuses the key or the nonce point (non-canonical or small order test, C88).
In `DssSilent`: `silent`, `edwards25519`.

**C151 A share that passes the public check is the committed share** (partial). `Model/Ed/Shares.lean` has the
checks on stored bytes and coordinates; `Lemmas/Ed/TopDigit.lean` gives the top signed digit in closed form,
hence the number `mulVal` that `Point::mul` takes 32 bytes for; `Props/EdUnreduced.lean` proves that the
checks are those of the protocol models with `mulVal`, and compares with the value modulo the order. Violated:
Scalar is deserialised without reduction, Point::mul drops a top signed digit above 8 (C69), scalar arithmetic
does not. Exact extent proved: the claim holds for bytes below lossFrom (about 8.47 * 2^252), so for all
reduced shares, and for no other bytes; against given commitments a wrong share that passes exists for all but
a fraction below 2^-126 of the values. A dealer can so give a verifier a share that it approves and that is
useless; the key share made from it does not fit the commitments (C151_key_bad_partial). In `EdUnreduced`:
`check_iff_partial`, `exact_partial`, `violated`, `forgeable_iff`, `verify_deal_partial`, `deal_forged`,
`rabin_partial`, `key_partial`, `key_bad_partial`.

**C152 Accepted partial signatures make a valid signature** (partial). `Props/DssUnreduced.lean`: the check as
for C151; recovery from `t` shares with one wrong share via the Lagrange weights, which are not zero.
Violated, for the same reason as C151: a participant can send a partial signature that everyone accepts and
that makes the signature invalid. Exact extent proved: bytes below lossFrom are safe, all others are not.
recover_secret is taken on the values modulo the order, which is what the scalar arithmetic computes with
(C49). In `DssUnreduced`: `one_wrong`, `check_iff_partial`, `exact_partial`, `violated`, `signature_partial`.

**C153 A message of an earlier run is not taken for one of the current run** (partial). `Spec/Replay.lean`:
two honest runs by one group, and the calls at a participant that is handed messages of the first. The proof
builds the group whose dealers in `old` are those of the first run; it is honest, and what the participant
sees is its run in that group, so C33_honest_run, C39_honest_run and, for resharings, C100_honest_run apply.
In `Replay`, `ReplayRabin`, `ReplayReshare`. Violated in both key generations (C153_violated): nothing in a
deal belongs to the run, C153_opens_iff is the exact condition. C153_replay and C153_replay_rabin: whoever
delivers recorded messages of an earlier run about any set of dealers in place of the new ones makes a
participant finish, without an error, with the sum of old and new polynomials; C153_reshare: the same for two
attempts at a resharing, where the public key stays right but the share belongs to neither attempt.
C153_split, C153_edwards25519: exactly when the keys of two participants still agree. What holds: deals of
another list of participants or another dealer are refused (C153_other_group_partial). In `Replay`,
`ReplayRabin`, `ReplayReshare`: `replay`, `split`, `opens_iff`, `other_group_partial`, `violated`,
`replay_rabin`, `edwards25519`, `reshare`.

**C154 A signature made for one kind of message is not one for another kind** (partial). `Spec/Signed.lean`
lists what is signed, with the calls of `schnorr::sign`. The inputs of the hashes begin with different letters
or, for partial signatures, have another length; deals of the Pedersen DKG are longer than a hash. Special
soundness (C13) turns one signature for two messages into equal challenges. In `Kinds`, `EdKinds`. Violated
(C154_violated): the signature of an encrypted deal is on the bytes of the Diffie-Hellman key alone, and a
hash of another message that encodes a point is such a key; C154_deal_key_iff is the exact condition.
C154_forge and C154_forge_rabin: with any signature of the dealer on the encoding of a point, that of another
deal for instance, the holder of the key of a verifier makes an encrypted deal that decrypt_deal attributes to
the dealer, with any content. What holds: messages of all other kinds are signed as different bytes unless the
hash collides on the two inputs (C154_kinds_partial), and a signature accepted for two kinds is such a
collision or one of the challenges of the signature scheme (C154_signature_partial, C154_edwards25519_partial
for the binary forms on edwards25519). In `EdKinds`, `Kinds`: `edwards25519_partial`, `kinds_partial`,
`deal_key_iff`, `violated`, `signature_partial`, `forge`, `forge_rabin`.

**C155 Whether a deal is certified does not depend on the order in which the responses arrive** (partial).
Induction over the list of responses gives what is stored for each index (`C155_first_wins`); with one answer
per verifier the sets of approving, complaining and missing verifiers are those of the answers received, and
C23 and C32 say when a deal is certified. In `ResponseOrder`. C155_violated, C155_violated_rabin: a verifier
that approves and complains is recorded with the answer heard first, so the order decides whether the deal is
certified. C155_split_pedersen: in a Pedersen DKG of three, where everybody receives all deals and responses,
such a participant makes the two others end with different public keys. What holds: C155_first_wins and
C155_first_wins_rabin say what is stored after any list of responses; if nobody gives two answers, verifiers
with the same answers agree (C155_agree_partial, C155_order_partial, C155_agree_rabin_partial). In
`ResponseOrder`: `first_wins`, `agree_partial`, `order_partial`, `first_wins_rabin`, `agree_rabin_partial`,
`violated`, `violated_rabin`, `split_pedersen`.

**C156 A participant of the Pedersen DKG that obtained its key share keeps it** (partial). C33 says what
`dist_key_share` returns in every reachable state, in terms of the qualified dealers and their deals. The
verifier of a settled deal changes at most its timeout in later calls (induction over the calls), which does
not change whether the deal is certified. In `KeyStable`. C156_violated: in an honest run a participant
obtains a share from two qualified dealers and another one when the third is qualified as well.
C156_violated_late: after a timeout a late complaint takes the share back. What holds: C156_settled_partial,
if each deal is there with all approvals, or refused for good, all later calls leave the share as it is;
C156_certified_partial: so it is once certified() is true; C156_resharing_partial: the first also for a new
node of a resharing. In `KeyStable`: `settled_partial`, `certified_partial`, `resharing_partial`, `violated`,
`violated_late`.

**C157 A participant of the Rabin DKG that obtained its key keeps it through the second phase** (partial). C39
says what `dist_key_share` returns in every reachable state. The calls of the second phase keep the qualified
dealers and the deals held (a complaint remembers its deal only if there is none), so the share stays;
C40_commitments_change says which calls change commitments. For the chosen key the dealer solves for the
linear coefficient, `A, x⁻¹ (s B - A), 0, ...`, which needs only public commitments and the receiver's share,
and its signature is accepted by C11. On the curve there is no module over the scalars, so the chosen key is a
multiple of the base point there. C157_violated: after the honest run a dealer sends other commitments that
fit the share of the receiver, whose public key changes. C157_chosen_key: for every state with a key and every
point there are commitments that the receiver accepts and that make this point its public key, the share
staying the same; the index in the deal must not be -1 in the field. C157_after_honest_run and
C157_edwards25519: so it is after every complete honest run, on the curve too, for every dealer and every
public key of which the dealer knows the private key. What holds: C157_share_partial, no messages of the
second phase change the private share; C157_same_commitments_partial, the key stays if the commitments that
come are those known already and nobody complains. In `EdKeyChange`, `RabinKeyChange`: `edwards25519`,
`share_partial`, `same_commitments_partial`, `after_honest_run`, `chosen_key`, `violated`.

**C158 The participants of an honest Rabin key generation sign together with the keys they obtain** (partial).
C157_after_honest_run gives the other key, C148_session_iff the different session identifiers, and C11 that
the signature on the message is right, so that the session identifier is what it is refused for. C158_alone is
an invariant over the calls: as many partial signatures as own ones, at most one. The partial result combines
C39, C157_same_commitments_partial and C17_honest_accepted. `SignAfter.lean`. C158_violated: on concrete
values participant 0 refuses the partial signature of participant 1, who obtained its key after other
commitments of dealer 2. C158_shut_out: it is so after every complete honest run, for every dealer and
receiver, in both directions, and the receiver never has a signature from these sessions; C158_edwards25519:
on the curve. C158_refused, C158_other_key_refused: sessions that differ in a commitment of one of the two
keys, in particular in the long-term public key, refuse each other's partial signatures with InvalidSessionId,
unless the hash collides. C158_alone: a session that is given partial signatures of other sessions only never
has a signature if the threshold is 2 or more. What holds: C158_same_commitments_partial, if the commitments
that come again are those known already. Missing there: other commitments. In `SignAfter`: `refused`,
`other_key_refused`, `alone`, `shut_out`, `same_commitments_partial`, `violated`, `edwards25519`.

