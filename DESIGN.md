# Formal model of fhe.rs in Lean 4: design

Contents: layers of the model; trusted base; what is modelled and what is not; hypotheses that recur; findings (claims of the
documentation that are false of the code, with proofs); plan per property; status per property; tests of the theorems.

## Layers

1. **Machine layer** (`Verif/Model/Checked, Util, Zq, Ntt, Rns`).  Rust functions on `u64`/`u128`/`u256` are modelled on `Nat` with
   *checked* arithmetic in the `Option` monad: an overflowing `+`, an underflowing `-`, a failing `assert!`/`debug_assert!`, an
   out-of-range index (also with `get_unchecked`; see C84) or an `unwrap` of `None` is the value `none`.  A theorem `f x = some y` therefore says
   two things: no such event happens (so debug and release builds agree), and the value is `y`.  Casts `as u64` are `% 2^64`, shifts
   drop bits, `wrapping_*` wrap.
2. **Polynomial layer** (`Verif/Model/Rq`).  Contexts and RNS polynomials as lists of rows of words, with the operations of
   `fhe-math/src/rq`, including representations, the timing flag, modulus switching, scaling, dot products with accumulators,
   substitution, conversion and serialization to bytes.  Functions that return `Result` and may panic: `Panics (Except MathError a)`.
3. **Scheme layer** (`Verif/Model/Bfv*`, `Verif/Model/Mbfv`).  The `fhe` crate on top of layer 2, function by function (not over an
   abstract ring): parameters, plaintexts, encodings, encryption, decryption, operators, keys, RGSW, multiparty protocols, and the
   conversion to and from protobuf messages and bytes.  Results are `Res a`: `ok`, `err e` or `panic`.
4. **Ring layer** (`Verif/Ring/Nega`, `Verif/Spec/*`).  The mathematics in which the properties are stated: `Nega N R`, i.e.
   `R[x]/(x^N+1)` with `R = ZMod t`, `ZMod q` or `Int`, the noise of a ciphertext as an integer polynomial, slots as evaluations.

Property theorems are in `Verif/Props/` (namespace `Fhe.Props`, named after the property), apart from the lemmas (`Verif/Lemmas/`).  The
vocabulary of the statements is in `Verif/Spec/`.  That the hypotheses can be met is shown by the `example`s next to the theorems and by those in
`Verif/Witness/`, which apply the theorems to one set of parameters, keys and ciphertexts (`Verif.Witness.Scene`).

## Trusted base

* **Lean 4.33.0's kernel**, and Mathlib as a library of definitions used in statements (`ZMod`, `Nat.Prime`, `Finset.sum`,
  `IsPrimitiveRoot`, ...).
* **Axioms**: every theorem depends on a subset of `propext`, `Classical.choice` and `Quot.sound`, and nothing else.  No axiom is added,
  there is no `sorry`, `admit`, `native_decide`, `bv_decide`, `implemented_by` or `unsafe`; `decide +kernel` is evaluated by the kernel.
* **The transcription** of the Rust code into `Verif/Model/*`, made by hand.  Each definition cites the lines it models and states its
  simplifications.
* **The semantics of Rust primitives** in `Verif/Model/Checked.lean` and of the dependencies listed next.

### Modelled by their contract (dependencies of the code)

* `num-bigint(-dig)`: `BigUint` is `Nat`, `BigInt` is `Int`; `mod_inverse`/extended gcd by its contract (C19, C56).
* `is_prime` (`probably_prime` of `num-bigint-dig`) is primality.
* `rand`, `rand_chacha`: a generator is an arbitrary stream of 64-bit words (`IsStream`); what a seed is expanded to is an unknown
  function with reduced rows as values (`Prg.OK`); the deterministic search for a primitive root draws from an unknown stream
  (`Build.rng`, `Build.OK`).  `Build.Lucky` says that this stream contains a non-square among the 100 values tried; it is needed only
  for "the constructor succeeds".
* `f64`: numbers with a significand of 53 bits and an unbounded exponent, every operation rounded to a nearest number (`Verif/Model/Float.lean`).
  `encode_database` of the PIR examples rounds up the square root of a `usize`; the model of the examples has the exact value, which C95_sqrt
  proves equal below 2^52.
* `tfhe_ntt::prime64::Plan` (optional feature): an arbitrary record of functions that meets `Spec.PlanFor` (C73).  The contract includes
  inputs in [p, 2p) for `fwd`, because `forward_vt_lazy` is called on lazily reduced coefficients; its documentation was not available.
* `ndarray`: arrays are lists of rows.  `itertools`: `izip!` truncates as `zip` does.
* `prost` and the code it generates from `bfv.proto` and `rq.proto` (neither is in /repo): `Verif/Model/Wire.lean` models the proto3
  encoding they implement, on lists of bytes.
* `HashMap`/`HashSet`: lists; C94 proves that of all results only the bytes of an evaluation key depend on the order.  The randomness of each
  Galois key is indexed by its exponent.

### Not modelled

* Cryptographic security.  Distributions: only the exact combinatorial law of the binomial sampler is stated
  (C12_distribution, C71).
* Timing is modelled at the level of the source (`Model/Timed*.lean`, C76-C78): jumps, table indices, divisions and big-number
  arithmetic are observable, everything else is not.  What the compiler, the processor, caches and allocators add is not modelled; the
  256-bit integers of `ethnum` are taken to be straight-line code, and the rejection loop of uniform sampling (whose rejected values are
  not used) is not part of the trace.  The operations on ciphertexts, which are public, have no timed model.
* Wiping is modelled as a function on values (C74); that the writes reach memory, that no copy remains, and when `Drop` runs is not.
* `Debug`/`Display` texts, allocation failures.  `Arc` is transparent, except that parameters carry the address of
  their allocation (`Par.addr`), which is what the code compares where it uses `Arc::ptr_eq`.
* With the optional feature `tfhe-ntt` the model of the layers above `ntt` is that of the native build; C73 shows that the operators of
  such a build are those of a native build with other roots, as far as they are called: the forward transforms on entries below 2p
  and the backward ones on reduced entries.
* Threads: the library has none.
* Benches, tests, and the command-line part of the examples.

## Hypotheses that recur

* `build b st = Res.ok par`: the parameters come out of the builder; everything else about them is derived (`C31_sound`).
* `Reliable i`: at most 31 moduli with sum at most 2^65, modulus at level `i` at least `2 t`, and, when `t < 2^62` (fast path of
  decryption), first modulus at least `2 t`.  When the first modulus is at most `t`, decryption is wrong: `C37_fast_path_wrong`.
* `Encrypts par s i m v`: the ciphertext at level `i` has phase `Q m / t + v / t` (see `Spec/BfvCipher.lean`); `Small`, `Bounded`: size of
  the noise.  `IsKey`, `IsFor`: a key belongs to the secret.  Each is shown to be produced by the generation functions for all
  randomness, so no theorem starts from an unreachable state; beside the theorems, `example`s instantiate them at degree 8 with three
  moduli.

## Findings

Statements of the documentation or natural expectations that are false of the code.  "(proved)" marks a theorem.

fhe-math:

* `Modulus::center` documents the interval [-p/2, p/2); for odd p it returns [-(p-1)/2, (p-1)/2] (proved, C07_center_doc_counterexample).
* `Modulus::deserialize_vec` does not reduce: values up to 2^k - 1 come out, k the bit length of p (proved, C13_deserialize_not_reduced).
* `generate_prime` with an upper bound of 0 underflows (proved, C09_upper_bound_zero_panics).
* The RNS scaler overflows its 256-bit accumulator or its word arithmetic when the moduli are many and large (proved,
  C21_overflow_counterexample).
* Deserialization of a power-basis polynomial does not check that residues are reduced (proved, C28_not_reduced); `parse_proto` uses the
  degree of the message, not that of the context.
* `Poly<PowerBasis>::multiply_inverse_power_of_x` underflows for powers above twice the degree (proved, C25_inverse_power).
* `try_convert_from` of exactly (number of moduli) * degree words takes them as residues, unreduced (proved, C29_u64_raw).
* `Modulus::scalar_mul_vec`, documented as constant time, divides the scalar by the modulus, and so reveals it under a variable-time division
  (proved, C76_scalar_mul_vec_reveals_scalar); so do `shoup` and `compute_coefficients_shoup`, which the library applies to public data only.
* `RnsScaler::scale` jumps on the sign of an intermediate value that depends on the coefficient (proved, C78_scale_reveals).
* `SubstitutionExponent` overflows for degrees from 2^32 on; the dot product of lazily reduced polynomials is not excluded.

fhe:

* The size of a serialized secret key depends on the key if the variance is 32, the largest that is accepted: a coefficient 64 takes two bytes
  (proved, C79_secret_key_differ; such a coefficient has probability 2^-128).
* Decryption is not constant time: it reveals one bit per coefficient of the phase (proved, C78_decrypt_reveals and C78_decrypt).
* Decryption's fast path uses the first modulus only: parameters with q0 <= t < 2^62 are accepted, and under them the encryption of zero
  never decrypts to zero (proved, C37_fast_path_wrong).  The threshold decryption does not have this defect.
* `Encoding::poly` does not reduce the values modulo t (proved, C35_unreduced, C35_not_reduced).  At a level with one modulus below t,
  values are taken unreduced.
* Decoding to `i64` panics for large plaintext moduli (proved, C35_signed_panics).
* `relinearizes` leaves the seed of the ciphertext in place, so a later serialization is wrong (proved, C41_seed).
* A seed is expanded directly to values at powers of the root of unity (`Poly::random_from_seed` for the NTT representations), so a seeded
  object - a fresh secret-key ciphertext, a generated public key, a key-switching key - means the same only to programs that use the same
  root (proved for ciphertexts, C72_seeded_differs).  The native operator draws its root from a fixed seed, so two native builds agree; the
  `tfhe-ntt` operator takes its root from another library, and need not agree with the native operator stored next to it (proved,
  C73_not_native), although a comment in its `PartialEq` says so; comparison is sound nevertheless (C73_equality).
* `&ct * &zero` is malformed while `&zero * &ct` is the empty ciphertext (proved, C39_zero).
* The decomposition base of a deserialized key is not checked, so that a message can lead to a panic (proved, C55_unchecked_base).
* `default_parameters_128(0)` panics (proved, C31_defaults); plaintext moduli in [2^62, 2^64) are rejected although larger ones are accepted
  (proved, C31_rejects).
* `supports_expansion` compares the level of the key with the number of moduli, which is never equal; the deserialization of evaluation
  keys does not compare the two levels.
* `RelinearizationKey::relinearizes` keeps the seed of the ciphertext although its last part is replaced, so that the result is not what is
  read back from its bytes (proved, C47_relinearized_seed and C47_seed_lost).  In the same way a user who changes the last part through
  `DerefMut` loses the change on writing (not modelled).
* A key switching key whose key level is above its ciphertext level is accepted on reading; using it returns an error, never a panic
  (proved, C67_relinearize, C67_evaluate).
* `Multiplicator::enable_relinearization` checks the level but not the parameters of the key (stated in C39_enable).
* Aggregation of public-key shares uses the common polynomial of the first share only (proved, C51_first_crp); a share with a polynomial of
  another level panics in debug builds (proved, C51_other_level; without debug assertions it works, C83_public_key); `PublicKeySwitchShare::new` ignores further parts of a ciphertext (proved,
  C53_public_ignores_rest).
* `plain_threshold` is computed but never read.
* The empty byte string is accepted as an evaluation key without Galois keys (proved, C62_empty).
* The voting example fails its final assertion with 4096 or more votes for (proved, C61_voting_program).
* The SealPIR example reads the inner ciphertext at level 2 and so fails for any other number of moduli than three (proved,
  C64_three_moduli).
* The example rgsw compares a plaintext at the last level with one at level 0; `Plaintext` equality includes the level, so its
  `assert_eq!` fails for all inputs although both decode to the right product (proved, C65_rgsw_fails, C65_rgsw, C65_rgsw_program).
* `==` on plaintexts is not transitive, because a missing encoding equals every encoding; and a plaintext from a decryption equals the one
  that was encrypted although `try_decode` without an encoding works for one and fails for the other (proved, C75_not_transitive).
* The parts of a ciphertext can be assigned, so its parts need not belong to its level.  Switching such a ciphertext down returns an error after the
  seed has been dropped and earlier parts have been switched: C81_torn.
* The contexts of the operands of polynomial arithmetic are compared by debug assertions only.  A release build that adds a polynomial of a lower level
  to one of a higher level returns a valid polynomial that is not the sum: C83_higher_left, C83_higher_left_mul.
* `RnsScaler::scale` and `scale_new` are safe public functions, but a release build accesses memory outside of its tables if more values are asked for than
  there are moduli from the starting index on, or if more residues are given than there are source moduli (the checks are debug assertions): C84_scale.
* `TryConvertFrom<Array2<u64>>` checks the shape of the matrix but not its layout.  If the columns are stored in reverse order (`invert_axis`), a later
  transform in variable time accesses memory behind the matrix although only safe functions were called: C84_layout.
* A plaintext made of coefficients at or above the first ciphertext modulus stands for two messages: decoding, encryption and addition use `x mod q mod t`,
  multiplication uses `x mod t`.  With t = 17 and q = 97, the value 100 adds 3 and multiplies by 15: C85_two_messages.
* A product of two equal ciphertexts permits variable-time computation if the first factor does, although the second may forbid it (equality ignores the
  flag, and the branch for squares never looks at the second factor): C87_square.  In the other order the product forbids it.
* A joint public key permits variable-time computations in its first part, while the public keys of one party never do (no consequence: encryption starts from
  secret polynomials that forbid it, C77_public_encrypt): C87_joint_public_key.  A joint relinearization key forbids it, while the keys of one party permit it, so
  computations with joint keys are slower: C87_joint_relinearization_key.
* Polynomials and ciphertexts written for a smaller degree with the same moduli are accepted by `from_bytes`, as something else: the degree in the
  bytes is used to cut them, and is not compared with that of the parameters (C88).
* Polynomials and ciphertexts written for other moduli with the same numbers of bits are accepted by `from_bytes`; a polynomial in the power basis may
  then hold residues that are not below its modulus (C89).
* Release builds silently encode slots that are not reduced as another message: a value between `2t` and `4t` in slot `N/4` changes slot `0`
  to `2^63 mod t` (C91).  The caller gets no error; builds with debug assertions panic.
* The predefined parameters of degree 1024 do not guarantee that an encryption with the public key decrypts to its message, for any size of the
  plaintext modulus; nor do those of degree 2048 for plaintext moduli of 34 bits or more (C92).
* A relinearization key with a key level above its ciphertext level is made without an error; `relinearizes` then refuses every ciphertext it is for,
  with `ContextNotReachable` (C93_relinearization_key).  The builder of evaluation keys refuses such levels.
* `Ciphertext::new` reports polynomials of different contexts as a mismatch at level 0, whatever the level of the first polynomial (C93_new).
* `EvaluationKey::to_bytes` writes the Galois keys in the order of a hash table, so the bytes of one key differ from run to run (C94_bytes): they
  cannot be compared or hashed to identify a key.
* With the parameters of the example bfv_ops (degree 4096) the worst-case noise bound does not leave room for the SIMD polynomial on
  vectors that do not fill all slots.  C65_ops_program_partial has everything else for all random choices; C65_ops_program has the whole
  program for all but a fraction 2^-64 of the words of the samples; C65_ops_next has all random choices for the next parameter set.

## Plan per property (written before the proofs)

| id | modelled | how it will be proved |
|----|----------|-----------------------|
| C01 | `Modulus::new` as Option-valued function | case split |
| C02 | Barrett code with 64/128-bit checked words | quotient estimate: floor(a*floor(2^128/p)/2^128) is off by at most one |
| C03 | `supports_opt`, optimized reductions | real-free integer inequality from Equation (1) |
| C04 | add/sub/neg/mul and vt variants | from C02 |
| C05 | Shoup arithmetic | quotient estimate |
| C06 | vector operations incl. 16-wide chunking | induction on the list |
| C07 | center / reduce_i64 on Int | case split, from C02; counterexample for the doc interval |
| C08 | pow loop, inv | loop invariant over exponent bits; Fermat's little theorem |
| C09 | generate_prime loops with fuel | loop invariants; `is_prime` is the external parameter, assumed to be primality |
| C10, C11 | transcoding loops | invariant relating accumulator to the bit-string value of the processed prefix |
| C12 | CBD sampler over an arbitrary stream of u64 | loop invariant on the pool |
| C13 | serialize_vec etc. | from C10 |
| C14-C17 | NTT loops on lists, checked butterflies | induction over levels; "checked = some pure" then algebra in ZMod p |
| C18 | operator construction with abstract RNG stream | order argument |
| C19, C20 | RnsContext | CRT |
| C21 | RnsScaler with 256-bit words | fixed-point error analysis |
| C22 | Context chain | induction |
| C23 | RNS polynomials, ops | C04-C06, C16, C20 |
| C24, C25 | substitution, monomials | permutation algebra |
| C26 | switch_down | integer rounding lemma |
| C27 | dot_product with accumulation counters | overflow invariant |
| C28, C29 | conversion and serialization (protobuf message as a record) | C13; the byte encoding is C62 |
| C30 | vt flag | case split / induction on expression trees |
| C31, C32 | builder | validation logic; C09 |
| C33, C34 | index map, SIMD | order of 3 modulo 2N; C14 |
| C35, C36 | encodings, to_poly | modular arithmetic |
| C37-C39 | encryption, decryption, homomorphic ops | phase identities + sup-norm bounds |
| C40-C45 | key switching, relinearization, Galois, inner sum, expansion, RGSW | ring identities, gadget lemma |
| C46 | ciphertext switch_down | C26 + norm bounds |
| C47-C50 | ciphertext validation, serialization, dot products, evaluation keys | case analysis on Result-valued models |
| C51-C53 | multiparty protocols | sums over lists, permutation invariance |
| C54-C56 | plaintext vectors, key serialization, inverse | induction / case analysis |

## Status per property

Every property is proved; the theorems are in MANIFEST.json with notes.  Properties added during the work:

| id | modelled | how it is proved |
|----|----------|-----------------------|
| C57 | `rq/scaler.rs`, `rq/switcher.rs` | row by row from C21 |
| C58 | `small`, `random`, `random_from_seed` | from C12 and C29 |
| C59 | `measure_noise` | exact bit length of the centered noise, from C20 |
| C60 | arbitrary expressions over the operations (`Spec/Circuit.lean`) | induction on the expression |
| C61 | `examples/voting.rs` from the parameters to the final assertion | composition of C31, C35, C37, C38, C51 and C53 |
| C62 | the protobuf encoding of all messages | the encoder writes well-formed fields, the reader inverts it; totality of the reader by cases; the reader accepts exactly the grammar (`Spec/WireText.lean`), by induction on either |
| C63 | `examples/mulpir.rs` and `examples/util.rs` from the database to the final assertion | composition of C31, C35, C37, C39, C41, C43, C50 and C62; noise bound monotone in the dimensions, evaluated in the kernel for the recommended moduli |
| C64 | `examples/sealpir.rs` from the database to the final assertion | as C63; the packing of a ciphertext inverts by the bit-level specification of C11; the negative part by inversion of the client |
| C65 | `examples/bfv_basic.rs`, `examples/bfv_ops.rs`, `examples/rgsw.rs` | composition of C31, C35, C37, C39, C41, C43, C45 and C50; the noise bounds are evaluated in the kernel for the default parameters; the failing assertion by comparing the contexts of the two plaintexts |
| C66 | composition of the multiparty protocols with arbitrary expressions (`Spec/Mpc.lean`) | the joint keys of C51 and C52 meet the hypotheses of C60 for the sum of the secrets; C53 for decryption and re-encryption; noise bound monotone in the number of parties, evaluated in the kernel |
| C67 | composition of all readers with all operations on ciphertexts (`Spec/Robust.lean`) | an invariant (`Ciphertext.Usable`) kept by induction over the inductive set of ciphertexts a server can hold: every usable ciphertext encrypts something with respect to any secret, and every well-formed key is a key for something with some error, so that the theorems on correct operation give success; the remaining cases return an error |
| C68 | the operators of `ops/mod.rs` and `==` on ciphertexts | the parts of every result are an explicit function of the integer polynomials of the operands (`Ciphertext.Is`), and the laws are those of lists of polynomials; for products, the list of parts is read as a polynomial with polynomial coefficients |
| C69 | `SecretKey::try_encrypt`, `PublicKey::try_encrypt`, addition of plaintexts | both encryptions are computed with the message left open; the scaled message determines the message because t is at most Q; the mask is found by subtraction |
| C70 | the aggregation of all kinds of shares | every share is an integer polynomial; the fold adds them and combines the variable-time flags by conjunction, and both are invariant under permutation |
| C71 | `sample_vec_cbd`, `SecretKey::random` with finitely many words (`Spec/Sampling.lean`) | words correspond to bits one to one; the samples read disjoint blocks of bits (C12), so the count of choices factors over the blocks; moments by orthogonality of the signs of different bits |
| C72 | two values of `Build` with different roots (`Spec/Portable.lean`) | the bytes are those of the power basis, which is an explicit function of the integer polynomial; the ciphertext is moved by encoding the same integer polynomials in the other context and the round trip C62 applies there; the limitation by evaluation at degree 8 and modulus 97 with the roots from 5 and 7 |
| C73 | `ntt/tfhe.rs` over an arbitrary plan (`Model/Tfhe.lean`), the contract of the plan (`Spec/Tfhe.lean`) | every primitive root is the power of some drawn value because the unit group is cyclic, so a native operator with the root of the plan exists; both evaluate at the same points, and the inverse is determined by the forward transform |
| C74 | the implementations of `Zeroize` (`Model/Zeroize.lean`) | a valid polynomial has the shape of the zero polynomial of its context, and wiping keeps the shape |
| C75 | the derived equalities (`Model/Equality.lean`) and all operations on ciphertexts and keys | objects that are equal are the same elements of the ring with other flags (`Alike`), and every operation is followed step by step for two such inputs (`Res.Same`); the dot product by C46, the multiplicators by their scalers; the failure of transitivity for plaintexts by an example |
| C76 | `zq`, `ntt/native.rs`, `sample_vec_cbd`, `rq` once more as a release build runs them, with a trace of jumps, indices and divisions (`Model/Timed*.lean`) | agreement with the checked model function by function (`*_agrees`), and a relational proof for two runs (`*_indist`) that composes along the monad |
| C77 | encoding, encryption, decoding, keys and shares as release builds (`Model/TimedBfv.lean`) | the same two relations, with secrets related by "same parameters and length" |
| C78 | `try_decrypt`, `RnsScaler::scale`, `KeySwitchingKey::new` as release builds | the trace before the jump on the sign cancels, and the jump is the next event, so that traces determine signs; key generation by comparing two runs that return the same key; the leak itself by evaluation for the moduli 97 and 113 |
| C79 | the wire encoding (`Model/Wire.lean`) and the conversions to messages | the length of every field by induction; a specification of sizes that is given public data only (`Spec/Sizes.lean`); generated keys by inverting their constructors |
| C80 | sampling (`Model/Sampling`), key generation and encryption; streams given by vectors of words (`Spec/Typical.lean`) | the moment generating function of a sum of signs, Markov's inequality and a union bound over the coefficients of a product (`Lemmas/Tail.lean`); counting coordinate by coordinate (`Lemmas/Typical.lean`) |
| C81 | the same operations with every assignment to the object in the order of the code (`Model/InPlace.lean`), where the object is kept after a failure (`Spec/InPlace.lean`) | refinement: on every input they end as the functions of the other files do (C81_agree); then every failure is one of the tests made before the first assignment, because C38, C46 and C67 exclude the later ones |
| C82 | the bytes (`Model/Wire.lean`) and `==` (`Model/Equality.lean`) | equal bytes are read as one object, which is equal to both (C62), and `==` is an equivalence; the converse is C75; for evaluation keys, maps without repeated keys have the same entries exactly if their messages are permutations of each other |
| C83 | the functions as compiled without checks (`Model/Timed*.lean`, `Model/ReleaseMore.lean`) on arguments at which the checked model panics | rows of polynomials are zipped, so the rows that both operands have are those of the operation of the common part (`Lemmas/Mixed.lean`); wrapping subtraction is right modulo 2N since 2N divides 2^64 |
| C84 | the functions with unchecked accesses, over an explicit allocation, with a third outcome for undefined behaviour (`Model/Memory.lean`); the polynomials a program can make (`Spec/Memory.lean`) | invariant of all polynomial operations: one row per modulus, of the length of the degree (`Lemmas/MemoryShape.lean`, `MemoryMade.lean`); every loop is compared to the loop on lists (`Memory.lean`, `MemoryScale.lean`, `MemoryPoly.lean`, `MemoryDot.lean`), and their values in `MemoryValue.lean` and `MemoryAgree.lean` |
| C85 | plaintexts that carry any integer polynomial (`Spec/Unreduced.lean`), with the existing model of encoders, decoders and operations | the butterflies of the first layer reject large operands; the two arms of `coefficients` on any polynomial; multiplication by any polynomial (`Lemmas/Unreduced.lean`) |
| C86 | nothing new: the models of the multiplicator, the operator, relinearization and the builder | the basis of the multiplicator is a prefix of that of the parameters (induction over the search for primes); the scalers coincide; products of two parts by two (`Lemmas/Agree.lean`) |
| C87 | nothing new: the flag is a field of the modelled polynomials; the lists of flags in `Spec/Permission.lean` | inversion of every operation that returned a result, without conditions on the parameters; induction over the accumulation loops, the inner sum and the rounds of an expansion (`Lemmas/Permission.lean`, `Lemmas/PermissionKeys.lean`) |
| C88 | nothing new: the modelled `toBytes` and `fromBytes`; the relation between the two polynomials in `Spec/OtherDegree.lean` | what the reader of residues returns depends on the moduli only; the residues are then taken as a short list of coefficients or refused as too long (`Lemmas/OtherDegree.lean`) |
| C89 | nothing new: the modelled `toBytes` and `fromBytes`; the relation between the two polynomials in `Spec/OtherModuli.lean` | how the bytes are cut and unpacked depends on the sizes of the moduli only; the transform reduces what was read (`Lemmas/OtherModuli.lean`) |
| C90 | nothing new but the numbers in the error `NotEnoughPrimes`; what each error says is in `Spec/Reasons.lean` | the errors of each loop by induction on the rest of the list; the primes that were generated are all of their size when the search fails, so that their number is the number of such primes (`Lemmas/Reasons.lean`) |
| C91 | nothing new: the release build of the encoder is in `Model/TimedBfv.lean` and `Model/TimedZq.lean`, with wrapping arithmetic | the passes of the backward transform map words to words; the last step reduces, so the result is the transform of some slots; for the exact message the first pass is computed and the others run in range (`Lemmas/UnreducedRelease.lean`) |
| C92 | nothing new; terms and depth of computations are defined in `Spec/Capacity.lean` | noise is at most the number of terms times a bound that only depends on the depth (`Lemmas/Capacity.lean`), which is computed for each size in the list by the kernel; the counterexample samples the largest coefficients everywhere, which C71 shows to be possible (`Props/WorstCase.lean`); with rotations, noise is at most parts times such a bound plus rotations times the error of a key switch (`Spec/Packing.lean`, `Lemmas/Packing.lean`, `Props/Packing.lean`); the bound for almost all choices is that of C80 (`Props/TypicalSets.lean`) |
| C93 | nothing new; `Spec/Answers.lean` defines what it is to answer a list of reasons | the checks of each operation in their order, and the theorems that the operation succeeds on what passes them (`Props/Answers.lean`, `Props/AnswersMore.lean`) |
| C94 | `Spec/HashOrder.lean`: keys with their tables in another order, and the two functions that iterate a hash table or set with the order as an argument | tables are only looked up, so equal lookups give equal answers; the bytes by the round trip of the messages (`Props/HashOrder.lean`) |
| C95 | `Model/Float.lean`: numbers with 53 bits, rounding to any nearest one, `variance` and the square root of `encode_database` with every operation rounded | relative errors, the sums of integers exact, and a float nearer to the root than the integer below it (`Lemmas/Float.lean`, `Props/Float.lean`) |
| C96 | `Spec/Moves.lean`: lists of calls of `rotates_rows` and `rotates_columns_by`, their totals, and where a slot comes from | induction over the list from C42; orders of 3 and -1 modulo `2N`; binary expansion of the number of columns (`Lemmas/Moves.lean`, `Props/Moves.lean`) |
| C97 | `Spec/Secrecy.lean`: the random choices, what an adversary sees, samples of learning with errors, probabilities by counting | encryption as sample plus message (`Lemmas/Secrecy.lean`, `Lemmas/Drawn.lean`); adding a message permutes the uniform coefficients; triangle inequality (`Props/Secrecy.lean`).  That learning with errors is hard is not provable here, and evaluation keys, which encrypt functions of the secret key itself, are not among what the adversary sees |
| C98 | `Spec/Joint.lean`: strategies of the other parties, what an adversary sees of a joint public key and encryptions with it.  The common random polynomial is given by uniform coefficients instead of uniform values of its transform, which are in bijection with them | the share of the honest party as sample, its sum with the other shares as a bijection of the uniform coefficients, then as for C97 (`Lemmas/Joint.lean`, `Props/Joint.lean`); limitation for a party that chooses last: the share that makes up the difference to a key of its own |
| C99 | decryption, decryption shares and signed decoding as modelled before; `Spec/Chosen.lean`: the integers read off a share | the ciphertext `(0, Q/t)` encrypts the key itself; a share for `(0, 4 v + 1)` is the key times `4 v + 1` plus an error of at most `2 v` (`Props/Chosen.lean`) |
| C100 | encryption, subtraction and decryption as modelled before | both encryptions as explicit sums; their difference has second part zero and so the same phase under every key (`Props/Reuse.lean`) |
| C101 | the share as modelled before, with its random words; `Spec/Switch.lean`: what an adversary sees, shares put together from coefficients; `Spec/Chosen.lean`: what the owner computes | the share is an encryption of the product of the key and the second part, so the reduction of C97 applies and the product disappears in a shift of uniform coefficients; for the owner the share of `(0, 2 E + 1)` is the key times `2 E + 1` plus an error of at most `E` (`Props/Switch.lean`) |
| C102 | the shares as modelled before, with their random words; `Spec/Decrypting.lean`: what an adversary sees, shares put together from coefficients | the share is computed for given random words; it is the reduction of `a s + e`, where `a` is the second part of the ciphertext (`Props/Decrypting.lean`) |
| C103 | decryption and the operators as modelled before; `Spec/Open.lean`: zero polynomials, open ciphertexts | zero polynomials are the representation of zero, so that the phase is the first part, whatever the key; the operators as functions of integer polynomials, of which the scalers map zero to zero (`Lemmas/Laws.lean`, `Props/Open.lean`) |

Changes with respect to the plan: the scheme layer is modelled on the words, not on the ring.  Some properties are true only with side
conditions; these are in the statement, and the findings above show that they are needed.

## Tests of the theorems against wrong programs

`seeded/LOG.jsonl` has one line per edit of the model: the definition, the edit, the claim it breaks, the theorems that failed and what was
tightened.  Edits that no theorem noticed are kept in the log with the explanation (an equivalent program) or the tightening (a statement
that was too weak).
