{"id": "C01", "title": "Modulus constructor accepts exactly 2..2^62", "statement": "Modulus::new(p) returns Ok exactly when 2 <= p < 2^62 and an InvalidModulus error otherwise; it never panics.", "quantifier": "every u64 p", "why_tests_cant": "2^64 inputs; the boundary behaviour and absence of panics (the to_u128().unwrap()) must hold for all of them", "anchors": ["crates/fhe-math/src/zq/mod.rs Modulus::new"]}
{"id": "C02", "title": "General modular reduction is exact for every input", "statement": "For every accepted modulus p, reduce(a) = a mod p for every u64 a and reduce_u128(a) = a mod p for every u128 a, in constant- and variable-time variants; the lazy variants return a value congruent to a in [0, 2p); no intermediate operation overflows or underflows.", "quantifier": "every modulus 2 <= p < 2^62 and every u64 / u128 input", "why_tests_cant": "2^62 moduli times 2^128 inputs: Barrett quotient error near boundaries is never sampled", "anchors": ["crates/fhe-math/src/zq/mod.rs reduce, reduce_vt, reduce_u128, reduce_u128_vt, lazy_reduce, lazy_reduce_u128, reduce1, reduce1_vt"]}
{"id": "C03", "title": "Optimized reduction is exact whenever supports_opt holds", "statement": "For every modulus with supports_opt(p) true, reduce_opt(a) = a mod p for every u64 a, reduce_opt_u128(a) = a mod p for every a < p^2, and mul_opt(a,b) = ab mod p for reduced a,b, without overflow; the Equation (1) test is therefore a sufficient condition.", "quantifier": "every modulus for which the library selects the optimized path and every admissible input", "why_tests_cant": "the selection criterion is an inequality on p; only a proof shows every p passing it is safe", "anchors": ["crates/fhe-math/src/zq/mod.rs lazy_reduce_opt, lazy_reduce_opt_u128, reduce_opt, reduce_opt_u128, mul_opt, mul_opt_vt", "crates/fhe-math/src/zq/primes.rs supports_opt"]}
{"id": "C04", "title": "Modular add, sub, neg, mul are exact", "statement": "For reduced operands a,b < p, add, sub, neg and mul (constant- and variable-time) return the mathematical result modulo p in [0,p) and never overflow; both variants agree.", "quantifier": "every modulus and all reduced operands", "why_tests_cant": "operand space is 2^186", "anchors": ["crates/fhe-math/src/zq/mod.rs add, add_vt, sub, mul, mul_vt, neg, neg_vt"]}
{"id": "C05", "title": "Shoup multiplication is exact for any u64 multiplicand", "statement": "For every u64 a (reduced or not) and b < p, lazy_mul_shoup(a,b,shoup(b)) is congruent to ab and lies in [0,2p), and mul_shoup(a,b,shoup(b)) = ab mod p; no subtraction underflows.", "quantifier": "every modulus, every u64 a, every b < p", "why_tests_cant": "NTT relies on a up to 4p; the underflow corner is input dependent", "anchors": ["crates/fhe-math/src/zq/mod.rs shoup, lazy_mul_shoup, mul_shoup, mul_shoup_vt"]}
{"id": "C06", "title": "Vector operations are the element-wise operations", "statement": "add_vec, sub_vec, mul_vec, neg_vec, scalar_mul_vec, mul_shoup_vec, reduce_vec (and _vt variants, including the 16-wide chunked ones) on equal-length vectors of reduced elements produce exactly the element-wise modular results for every length.", "quantifier": "every vector length and content", "why_tests_cant": "chunk/remainder boundaries depend on length; any length may be used", "anchors": ["crates/fhe-math/src/zq/mod.rs add_vec, add_vec_vt, sub_vec, sub_vec_vt, mul_vec, mul_vec_vt, neg_vec, scalar_mul_vec, mul_shoup_vec, reduce_vec, lazy_reduce_vec"]}
{"id": "C07", "title": "Centering and signed reduction are inverse", "statement": "reduce_i64(a) = a mod p for every i64 a; center(a) is congruent to a modulo p for every reduced a and lies in [-ceil(p/2), floor(p/2)); reduce_i64(center(a)) = a; center(reduce_i64(x)) = x for x in that interval. (The documented interval [-p/2,p/2) is violated for odd p.)", "quantifier": "every modulus, every i64", "why_tests_cant": "signed/unsigned casts at i64 extremes and odd moduli", "anchors": ["crates/fhe-math/src/zq/mod.rs center, center_vec, reduce_i64, reduce_vec_i64"]}
{"id": "C08", "title": "Exponentiation and inversion", "statement": "pow(a,n) = a^n mod p for all a,n < p; inv(a) is None exactly when p is composite or a = 0, and otherwise returns the unique b in [0,p) with ab = 1 mod p.", "quantifier": "every modulus, all a, n < p", "why_tests_cant": "bit-scan boundaries of the exponent, Fermat inverse for every prime", "anchors": ["crates/fhe-math/src/zq/mod.rs pow, inv"]}
{"id": "C09", "title": "Prime generation is sound and complete", "statement": "generate_prime(bits, m, ub) terminates without underflow for admissible arguments; when it returns p, p is prime, has exactly `bits` bits, p = 1 mod m and p < ub; when it returns None no such prime exists; and the result is the largest such prime.", "quantifier": "every bit size 10..62, every modulo >= 2, every upper bound in (0, 2^bits]", "why_tests_cant": "a search loop over up to 2^62 candidates with two stop conditions", "anchors": ["crates/fhe-math/src/zq/primes.rs generate_prime"]}
{"id": "C10", "title": "Byte transcoding is lossless", "statement": "transcode_from_bytes(transcode_to_bytes(a, n), n) has a as prefix and is exactly a followed by zero padding words; the number of bytes is ceil(len*n/8); when len*n is a multiple of 8 the round trip is exact. No assertion fires for values below 2^n.", "quantifier": "every bit width 1..64, every vector of n-bit values of any length", "why_tests_cant": "accumulator/bit-offset state depends on the whole history of the vector", "anchors": ["crates/fhe-util/src/lib.rs transcode_to_bytes, transcode_from_bytes"]}
{"id": "C11", "title": "Bit-stream re-chunking preserves the bit string", "statement": "transcode_bidirectional(a, in, out) returns ceil(len*in/out) words whose out-bit little-endian concatenation is the in-bit little-endian concatenation of a, zero padded; transcoding back restores a.", "quantifier": "every pair of widths 1..64 and every vector", "why_tests_cant": "all pairs of widths and lengths; carry state is unbounded", "anchors": ["crates/fhe-util/src/lib.rs transcode_bidirectional"]}
{"id": "C12", "title": "Centered binomial sampler is bounded and consumes each random bit at most once", "statement": "sample_vec_cbd(n, v, rng) errs exactly when v is not in 1..32; otherwise it returns n samples, the i-th being popcount of one block of 2v random bits minus popcount of the next 2v bits, blocks of distinct samples being disjoint, so |sample| <= 2v; no shift overflows.", "quantifier": "every size n, every variance, every RNG output stream", "why_tests_cant": "the pool carries leftover bits between samples, so correctness depends on the whole history", "anchors": ["crates/fhe-util/src/lib.rs sample_vec_cbd"]}
{"id": "C13", "title": "Vector serialization round-trips at the advertised length", "statement": "For a vector of reduced elements whose length is a multiple of 8, serialize_vec has length serialization_length(len) and deserialize_vec(serialize_vec(a)) = a. deserialize_vec of arbitrary bytes returns values below 2^bits(p-1) which may be >= p.", "quantifier": "every modulus and vector", "why_tests_cant": "bit packing depends on modulus width and length", "anchors": ["crates/fhe-math/src/zq/mod.rs serialize_vec, deserialize_vec, serialization_length"]}
{"id": "C14", "title": "Forward NTT evaluates at the odd powers of the root", "statement": "Given an operator for (p,N), forward(a)[i] = sum_j a_j * omega^{j(2*bitrev(i)+1)} mod p with every output in [0,p), for every reduced input; intermediate values stay below 4p and nothing overflows.", "quantifier": "every supported prime, every power-of-two size, every input vector", "why_tests_cant": "recursive butterfly network of unbounded size", "anchors": ["crates/fhe-math/src/ntt/native.rs NttOperator::forward, butterfly, reduce3"]}
{"id": "C15", "title": "Backward NTT inverts forward NTT", "statement": "backward(forward(a)) = a and forward(backward(b)) = b for all reduced vectors.", "quantifier": "every supported prime/size/input", "why_tests_cant": "bijection over p^N inputs", "anchors": ["crates/fhe-math/src/ntt/native.rs NttOperator::backward, inv_butterfly"]}
{"id": "C16", "title": "NTT multiplication is negacyclic convolution", "statement": "backward(forward(a) .* forward(b)) equals the product of a and b in Z_p[x]/(x^N+1), coefficient by coefficient.", "quantifier": "every supported prime/size and all pairs of inputs", "why_tests_cant": "bilinear identity over p^{2N} pairs", "anchors": ["crates/fhe-math/src/ntt/native.rs forward, backward", "crates/fhe-math/src/rq/ops.rs MulAssign"]}
{"id": "C17", "title": "Variable-time and lazy NTT variants agree with the constant-time ones", "statement": "forward_vt = forward and backward_vt = backward on every reduced input; forward_vt_lazy on lazily reduced input (below 2p) yields values below 4p congruent to forward of the reduced input.", "quantifier": "every supported prime/size/input", "why_tests_cant": "two independently written loops must coincide everywhere", "anchors": ["crates/fhe-math/src/ntt/native.rs forward_vt, forward_vt_lazy, backward_vt"]}
{"id": "C18", "title": "NTT operator construction", "statement": "NttOperator::new returns None when p is not a prime = 1 mod 2N; when the root search succeeds the tables it builds consist of powers of an element of exact order 2N. The post-test a^{2N}=1 and a^N != 1 characterizes elements of order 2N.", "quantifier": "every modulus and size, every RNG stream used in the root search", "why_tests_cant": "table entries depend on bit reversal for every size", "anchors": ["crates/fhe-math/src/ntt/native.rs NttOperator::new, primitive_root, is_primitive_root", "crates/fhe-math/src/ntt/mod.rs supports_ntt"]}
{"id": "C19", "title": "RNS context construction accepts exactly coprime valid moduli", "statement": "RnsContext::new succeeds exactly on non-empty lists of pairwise coprime moduli each in 2..2^62 and never panics on any u64 list.", "quantifier": "every list of u64", "why_tests_cant": "all pairs of moduli; internal unwraps must be unreachable", "anchors": ["crates/fhe-math/src/rns/mod.rs RnsContext::new"]}
{"id": "C20", "title": "RNS project and lift are inverse bijections", "statement": "lift(project(x)) = x mod Q, project(lift(r)) = r for reduced r, lift(r) < Q, and lift is a ring homomorphism; the garner coefficients are the CRT idempotents.", "quantifier": "every coprime moduli list, every big integer, every residue vector", "why_tests_cant": "integers modulo Q up to thousands of bits", "anchors": ["crates/fhe-math/src/rns/mod.rs project, lift, get_garner"]}
{"id": "C21", "title": "RNS scaling rounds the centered value", "statement": "For a scaler with factor n/d and input residues of x (centered lift modulo Q), the output residues are those of an integer y with |y - x_c*n/d| <= 1/2 + eps, where x_c is a representative of x in (-Q/2-eps', Q/2+eps'); for n/d = 1 the output is exactly the residue of x_c; no accumulator overflows.", "quantifier": "every pair of RNS contexts, factor and residue vector with the stated size bounds", "why_tests_cant": "fixed-point 127-bit error analysis; failures live in a 2^-100 fraction of inputs", "anchors": ["crates/fhe-math/src/rns/scaler.rs RnsScaler::new, extract_projection_and_theta, scale"]}
{"id": "C22", "title": "Context chain drops one modulus per level", "statement": "context_at_level(i) succeeds exactly for i < number of moduli and yields the context over the first k-i moduli; niterations_to(context_at_level(i)) = i; unrelated contexts are reported unreachable.", "quantifier": "every moduli list and level", "why_tests_cant": "recursive structure of unbounded depth", "anchors": ["crates/fhe-math/src/rq/context.rs Context::new, context_at_level, niterations_to"]}
{"id": "C23", "title": "Polynomial operators are the ring operations of Z_Q[x]/(x^N+1)", "statement": "Addition, subtraction, negation, multiplication (Ntt*Ntt and Ntt*NttShoup) and multiplication by a big integer on polynomials with the same context yield the polynomial whose coefficients are the ring results in Z_Q[x]/(x^N+1), independent of representation and timing flag, and keep coefficients reduced.", "quantifier": "every context and operands", "why_tests_cant": "ring identities over Q^{2N} pairs", "anchors": ["crates/fhe-math/src/rq/ops.rs AddAssign, SubAssign, MulAssign, Neg, Mul<&BigUint>"]}
{"id": "C24", "title": "Substitution is the ring automorphism x -> x^k", "statement": "SubstitutionExponent::new rejects exactly even exponents; substitute computes p(x^k) mod x^N+1, and the Ntt permutation path and the PowerBasis path give the same polynomial.", "quantifier": "every degree, odd exponent, polynomial", "why_tests_cant": "index permutation through bit reversal for every size", "anchors": ["crates/fhe-math/src/rq/mod.rs SubstitutionExponent::new, substitute"]}
{"id": "C25", "title": "Multiplication by x^-k", "statement": "multiply_inverse_power_of_x(k) for k <= 2N yields the polynomial q with q * x^k = p in the ring; k > 2N underflows (panics in debug builds).", "quantifier": "every degree, power, polynomial", "why_tests_cant": "wrap-around sign handling for every k", "anchors": ["crates/fhe-math/src/rq/mod.rs multiply_inverse_power_of_x"]}
{"id": "C26", "title": "Modulus switching rounds to nearest", "statement": "switch_down on residues of X yields residues of round(X/q_last) = floor((X + floor(q_last/2))/q_last) for every remaining modulus, consistently for the same X, without overflow; with no next context it errs and leaves the polynomial unchanged; switch_down_to composes.", "quantifier": "every moduli chain and coefficient", "why_tests_cant": "carry/rounding boundary cases across residues", "anchors": ["crates/fhe-math/src/rq/mod.rs switch_down, switch_down_to"]}
{"id": "C27", "title": "Polynomial dot product equals the sum of products and never overflows its accumulator", "statement": "dot_product(p,q) errs exactly when empty, lengths differ or contexts differ; otherwise it returns sum_i p_i*q_i for any number of terms, the u128 accumulators never overflow, and timing permission is granted only if every operand grants it.", "quantifier": "every number of terms, moduli and polynomials", "why_tests_cant": "overflow needs more than 2^(2*lz) terms; not reachable in tests", "anchors": ["crates/fhe-math/src/rq/ops.rs dot_product, fma"]}
{"id": "C28", "title": "Polynomial serialization round-trips and validates", "statement": "from_bytes(to_bytes(p), ctx) = p (with timing permission off) in each representation; messages with wrong representation, degree not a multiple of 8, or a wrong number of bytes are rejected; accepted messages need not encode reduced coefficients (recorded limitation). Reading an arbitrary message never panics, and what is accepted in the NTT representations is a valid polynomial.", "quantifier": "every context, polynomial and message", "why_tests_cant": "all polynomials; adversarial messages", "anchors": ["crates/fhe-math/src/rq/convert.rs From<&Poly> for Rq, parse_proto, TryConvertFrom<&Rq>", "crates/fhe-math/src/rq/serialize.rs"]}
{"id": "C29", "title": "Conversion from integers", "statement": "Building a polynomial from u64, i64 or BigUint coefficients yields the residues of exactly these integers, padded by zeros, and rejects exactly vectors whose length is neither allowed; converting back to integers is the inverse.", "quantifier": "every coefficient vector", "why_tests_cant": "all lengths and signed boundary values", "anchors": ["crates/fhe-math/src/rq/convert.rs TryConvertFrom<Vec<u64>>, TryConvertFrom<&[i64]>, TryConvertFrom<&[BigUint]>, From<&Poly> for Vec<BigUint>"]}
{"id": "C30", "title": "Timing permission only decreases", "statement": "The result of any binary polynomial operation allows variable-time computation only if both operands do; deserialized polynomials never allow it by themselves.", "quantifier": "every operation sequence", "why_tests_cant": "information-flow over all compositions of operations", "anchors": ["crates/fhe-math/src/rq/ops.rs AddAssign, SubAssign, MulAssign, dot_product", "crates/fhe-math/src/rq/convert.rs parse_proto"]}
{"id": "C31", "title": "Parameter builder accepts only valid parameter sets", "statement": "When build() succeeds: the degree is a power of two in 8..65536, the variance is in 1..32, the moduli are distinct primes = 1 mod 2N below 2^62, the plaintext modulus is coprime to and smaller than their product; when given sizes, the generated moduli have these sizes and are distinct; the documented invalid configurations are rejected.", "quantifier": "every builder configuration", "why_tests_cant": "unbounded configuration space", "anchors": ["crates/fhe/src/bfv/parameters.rs BfvParametersBuilder::build, validate_configuration, validate_moduli, generate_moduli"]}
{"id": "C32", "title": "Parameters survive serialization", "statement": "try_deserialize(to_bytes(par)) rebuilds equal parameters; messages with missing plaintext modulus are rejected.", "quantifier": "every valid parameter set", "why_tests_cant": "must hold for every parameter set", "anchors": ["crates/fhe/src/bfv/parameters.rs Serialize, Deserialize"]}
{"id": "C33", "title": "SIMD slot index map is a permutation", "statement": "The slot-to-index map built for degree N is a bijection of {0..N-1}: first row visits the exponents 3^i, second row -3^i.", "quantifier": "every power-of-two degree", "why_tests_cant": "group-theoretic fact for every size", "anchors": ["crates/fhe/src/bfv/parameters.rs matrix_reps_index_map"]}
{"id": "C34", "title": "SIMD encode/decode round trip", "statement": "Decoding a SIMD-encoded vector of reduced values returns the vector zero-padded to the degree; slot-wise addition and multiplication of plaintext polynomials correspond to element-wise vector operations.", "quantifier": "every supported plaintext modulus, degree, vector", "why_tests_cant": "all vectors; depends on NTT and permutation for every size", "anchors": ["crates/fhe/src/bfv/plaintext_vec.rs encode_u64_chunk", "crates/fhe/src/bfv/plaintext.rs decode_simd_u64"]}
{"id": "C35", "title": "Polynomial encode/decode round trip and error cases", "statement": "Encoding values reduced modulo t with Encoding::poly and decoding returns them zero padded; i64 values in the centered range round-trip through signed encoding; too many values and encoding mismatches are rejected with errors. Values >= min(q_0, ...) unreduced do not round trip modulo t (recorded limitation).", "quantifier": "every vector and encoding", "why_tests_cant": "value and length boundaries", "anchors": ["crates/fhe/src/bfv/plaintext.rs try_encode, try_decode, resolve_encoding, coefficients"]}
{"id": "C36", "title": "Plaintext scaling computes floor(Q*m/t)", "statement": "The polynomial added to a ciphertext for plaintext coefficient m has coefficient floor(Q*m/t) mod Q exactly, for every level.", "quantifier": "every modulus chain, plaintext modulus, coefficient", "why_tests_cant": "exactness across residues for all m", "anchors": ["crates/fhe/src/bfv/plaintext.rs to_poly", "crates/fhe/src/bfv/parameters.rs delta, q_mod_t"]}
{"id": "C37", "title": "Decryption inverts encryption within the noise budget", "statement": "For every secret key, message, mask and error drawn by the sampler, try_decrypt(try_encrypt(m)) = m whenever t*(worst case noise) is below Q/2 by the stated margin, for secret-key and public-key encryption at every level; provided that the first modulus q_0 is large enough relative to t. (Parameters with q_0 <= t < 2^62 are accepted as well, but with them every encryption of zero decrypts to something else.)", "quantifier": "every key, randomness, message, level", "why_tests_cant": "probabilistic failures are invisible to tests; worst-case over all randomness", "anchors": ["crates/fhe/src/bfv/keys/secret_key.rs try_encrypt, try_decrypt, encrypt_poly", "crates/fhe/src/bfv/keys/public_key.rs try_encrypt"]}
{"id": "C38", "title": "Homomorphic addition, subtraction, negation and plaintext operations", "statement": "For ciphertexts with noise below the bound, ct1 + ct2, ct1 - ct2, -ct, ct + pt, ct - pt, ct * pt decrypt to the corresponding ring operation on plaintexts modulo t; the phases satisfy the exact identities; adding the empty (zero) ciphertext is neutral.", "quantifier": "all ciphertexts (of any number of parts), plaintexts, keys", "why_tests_cant": "worst-case over all ciphertext histories", "anchors": ["crates/fhe/src/bfv/ops/mod.rs Add, Sub, Neg, Mul<&Plaintext>, AddAssign"]}
{"id": "C39", "title": "Ciphertext multiplication is the tensor product scaled by t/Q", "statement": "The product of ciphertexts with k and l parts has k+l-1 parts and encrypts the product of the messages; its noise is, exactly, that of the product of the integer phases scaled by t/Q plus that of the rounding errors of the scaling, and has an explicit bound. Multiplicators multiply ciphertexts of two parts for every sound choice of basis and factors; with relinearization the product has 2 parts and the same message, with modulus switching it is at the next level. The empty ciphertext, operands of other parameters or levels and operands with another number of parts are treated as stated.", "quantifier": "all ciphertexts and keys", "why_tests_cant": "worst-case noise over all inputs", "anchors": ["crates/fhe/src/bfv/ops/mod.rs Mul<&Ciphertext>", "crates/fhe/src/bfv/ops/mul.rs Multiplicator::multiply"]}
{"id": "C40", "title": "Key switching preserves the phase up to the stated noise", "statement": "For a key-switching key from s' to s, key_switch(p) = (c0,c1) satisfies c0 + c1*s = p*s' + sum_i [p]_i * e_i exactly in the ring, for the RNS gadget and for the power-of-two digit decomposition.", "quantifier": "every key, polynomial, number of moduli, digit base", "why_tests_cant": "identity over all polynomials and decompositions", "anchors": ["crates/fhe/src/bfv/keys/key_switching_key.rs new, key_switch, key_switch_decomposition"]}
{"id": "C41", "title": "Relinearization preserves the decrypted value", "statement": "relinearizes rejects ciphertexts without exactly 3 parts or at the wrong level, and otherwise yields a 2-part ciphertext with phase equal to the original phase plus key-switching noise.", "quantifier": "all 3-part ciphertexts and keys", "why_tests_cant": "worst-case", "anchors": ["crates/fhe/src/bfv/keys/relinearization_key.rs relinearizes"]}
{"id": "C42", "title": "Galois keys rotate slots", "statement": "Applying the Galois key of exponent 3^i rotates each row of the SIMD matrix by i columns and exponent 2N-1 swaps the rows, for every plaintext; the ciphertext phase is the substituted phase plus noise.", "quantifier": "every degree, rotation amount, plaintext, ciphertext", "why_tests_cant": "index algebra for all sizes and rotations", "anchors": ["crates/fhe/src/bfv/keys/galois_key.rs relinearize", "crates/fhe/src/bfv/keys/evaluation_key.rs rotates_columns_by, rotates_rows"]}
{"id": "C43", "title": "Inner sum puts the sum of all slots in every slot", "statement": "computes_inner_sum yields a ciphertext each of whose slots holds the sum of all slots of the input (up to noise).", "quantifier": "every degree and plaintext", "why_tests_cant": "log N composition of rotations for all sizes", "anchors": ["crates/fhe/src/bfv/keys/evaluation_key.rs computes_inner_sum"]}
{"id": "C44", "title": "Oblivious expansion", "statement": "expands(ct, k) returns k ciphertexts, the i-th encrypting 2^ceil(log2 k) times the i-th coefficient of the plaintext as constant (when higher coefficients vanish).", "quantifier": "every k <= N, every plaintext polynomial of degree < 2^level", "why_tests_cant": "recursive doubling, all sizes", "anchors": ["crates/fhe/src/bfv/keys/evaluation_key.rs expands"]}
{"id": "C45", "title": "RGSW external product", "statement": "ct * rgsw has phase m * phase(ct) + noise where m is the RGSW plaintext.", "quantifier": "all ciphertexts and RGSW ciphertexts", "why_tests_cant": "identity over all inputs", "anchors": ["crates/fhe/src/bfv/rgsw_ciphertext.rs Mul<&RGSWCiphertext>, FheEncrypter"]}
{"id": "C46", "title": "Ciphertext modulus switching preserves the plaintext", "statement": "switch_down moves a ciphertext one level down, fails exactly at the last level, and its phase becomes the phase divided by q_last with rounding error at most (1 + sum_j ||s^j||_1)/2 per coefficient; switch_to_level reaches exactly the requested level and rejects going up.", "quantifier": "all ciphertexts, levels, keys", "why_tests_cant": "rounding interplay over all coefficients", "anchors": ["crates/fhe/src/bfv/ciphertext.rs switch_down, switch_to_level"]}
{"id": "C47", "title": "Ciphertext serialization round-trips and validates", "statement": "from_bytes(to_bytes(ct)) = ct for every structurally valid ciphertext, including seeded ones whose last part equals the seed expansion; messages with fewer than two parts, invalid level, malformed polynomial or seed length are rejected. Relinearizing a seeded 3-part ciphertext breaks this (recorded limitation). Reading an arbitrary message never panics, and every accepted ciphertext is structurally valid.", "quantifier": "every ciphertext and message", "why_tests_cant": "adversarial messages; all ciphertext histories", "anchors": ["crates/fhe/src/bfv/ciphertext.rs to_bytes, from_bytes, try_convert_from"]}
{"id": "C48", "title": "Ciphertext operations validate their operands", "statement": "Fallible ciphertext operations (validate_for, decrypt, relinearize, Galois, multiply, dot product) reject ciphertexts of other parameters, wrong level or wrong number of parts with an error and never reach an internal panic on structurally valid ciphertexts.", "quantifier": "every ciphertext shape", "why_tests_cant": "shape combinations are unbounded", "anchors": ["crates/fhe/src/bfv/ciphertext.rs validate_for, validate_for_context", "crates/fhe/src/bfv/ops/mul.rs multiply"]}
{"id": "C49", "title": "Ciphertext-plaintext dot product", "statement": "dot_product_scalar(cts, pts) equals sum_i ct_i * pt_i for any count, without accumulator overflow, and errs exactly on empty or mismatching inputs.", "quantifier": "every number of terms", "why_tests_cant": "overflow threshold is 2^(2*lz) terms", "anchors": ["crates/fhe/src/bfv/ops/dot_product.rs dot_product_scalar"]}
{"id": "C50", "title": "Evaluation-key capabilities match the operations", "statement": "supports_X returning true implies the operation X finds all the Galois keys it needs (no missing-key error); when a needed key is absent X returns an error instead of a wrong result; keys requested through the builder are present.", "quantifier": "every builder request sequence and query", "why_tests_cant": "all subsets of capabilities", "anchors": ["crates/fhe/src/bfv/keys/evaluation_key.rs supports_inner_sum, supports_row_rotation, supports_column_rotation_by, supports_expansion, EvaluationKeyBuilder::build"]}
{"id": "C51", "title": "Multiparty public key", "statement": "Aggregating the public-key shares of any set of parties gives (p0,p1) with p0 + p1*s = sum of errors, s = sum of secret keys; the result does not depend on the order of the shares.", "quantifier": "every number of parties, keys, order", "why_tests_cant": "unbounded parties and schedules", "anchors": ["crates/fhe/src/mbfv/public_key_gen.rs PublicKeyShare::new, from_shares"]}
{"id": "C52", "title": "Multiparty relinearization key", "statement": "After both rounds, the aggregated key satisfies c0_i + c1_i*s = w_i*s^2 + (explicit noise) for the joint secret s, independent of the order of aggregation.", "quantifier": "every number of parties and order", "why_tests_cant": "unbounded parties; two-round protocol", "anchors": ["crates/fhe/src/mbfv/relin_key_gen.rs round_1, round_2, from_shares"]}
{"id": "C53", "title": "Multiparty key switching and decryption", "statement": "Aggregating secret-key-switch shares re-encrypts under the output key with phase preserved up to the sum of errors; decryption shares recover the plaintext within noise budget; public-key-switch shares give phase under the target key equal to the original phase plus explicit noise.", "quantifier": "every number of parties and order", "why_tests_cant": "unbounded parties", "anchors": ["crates/fhe/src/mbfv/secret_key_switch.rs", "crates/fhe/src/mbfv/public_key_switch.rs"]}
{"id": "C54", "title": "Plaintext vectors chunk without loss", "statement": "PlaintextVec encoding splits a value vector into max(1, ceil(len/N)) plaintexts and concatenated decoding returns the values zero padded.", "quantifier": "every length", "why_tests_cant": "chunk boundaries for every length", "anchors": ["crates/fhe/src/bfv/plaintext_vec.rs try_encode_with"]}
{"id": "C55", "title": "Key serialization validates", "statement": "Secret, public, relinearization, Galois and evaluation keys and RGSW ciphertexts deserialize only when part counts, levels, exponents and seed lengths are consistent; reading an arbitrary message never panics; every key made by the API is read back equal from its serialization and works for the same secret keys. The decomposition base is not checked: an accepted key can make relinearization panic (recorded limitation).", "quantifier": "every key and message", "why_tests_cant": "adversarial messages", "anchors": ["crates/fhe/src/bfv/keys/key_switching_key.rs try_convert_from", "crates/fhe/src/bfv/keys/public_key.rs from_bytes", "crates/fhe/src/bfv/keys/secret_key.rs from_bytes", "crates/fhe/src/bfv/keys/evaluation_key.rs try_convert_from", "crates/fhe/src/bfv/keys/relinearization_key.rs try_convert_from", "crates/fhe/src/bfv/keys/galois_key.rs try_convert_from", "crates/fhe/src/bfv/rgsw_ciphertext.rs try_convert_from"]}
{"id": "C56", "title": "Modular inverse helper", "statement": "inverse(a,p) returns Some(b) exactly when gcd(a,p)=1 (p>1), with ab = 1 mod p and b < p.", "quantifier": "every u64 pair", "why_tests_cant": "all pairs", "anchors": ["crates/fhe-util/src/lib.rs inverse"]}
{"id": "C57", "title": "Scaling polynomials between contexts", "statement": "Applying a Scaler (or Switcher) by n/d from one context to another of the same degree replaces every coefficient, seen as the centered representative c modulo Q, by a rounding of c n/d (error below 1/2 + 2^-62) modulo the target modulus, in PowerBasis and Ntt representation alike; degree and context mismatches are errors.", "quantifier": "every pair of contexts with room in the accumulator, every factor and polynomial", "why_tests_cant": "rounding and overflow for every coefficient vector", "anchors": ["crates/fhe-math/src/rq/scaler.rs Scaler::new scale", "crates/fhe-math/src/rq/switcher.rs Switcher::new"]}
{"id": "C58", "title": "Small and random polynomials are valid", "statement": "Poly::small with variance v in 1..=32 yields, in any representation, the element whose coefficients are the centered binomial samples of the stream, bounded by 2v in absolute value; other variances are rejected. Poly::random yields a valid polynomial with the sampled residues. Neither allows variable time.", "quantifier": "every random stream, variance and context", "why_tests_cant": "every stream", "anchors": ["crates/fhe-math/src/rq/mod.rs small random random_from_seed"]}
{"id": "C59", "title": "The noise meter is exact", "statement": "For a ciphertext that decrypts correctly, measure_noise returns the exact bit length of the largest coefficient (in absolute value) of the noise, i.e. of phase - floor(Q m / t): the result is at most B if and only if every noise coefficient is below 2^B in absolute value.", "quantifier": "every ciphertext with decryptable noise, every key and level", "why_tests_cant": "tests can only compare against the same computation; the claim ranges over every noise polynomial", "anchors": ["crates/fhe/src/bfv/keys/secret_key.rs measure_noise"]}
{"id": "C60", "title": "Every computation on ciphertexts decrypts to the same computation on messages", "statement": "Take any expression, of any size and depth, built from given ciphertexts with the operations of the library: addition, subtraction, negation, the same with plaintexts, multiplication followed by relinearization, a default multiplicator, external products with RGSW ciphertexts, row and column rotations, inner sums and switching to the next level. If the inputs encrypt their messages and the keys belong to the secret key and to the levels where they are used, then evaluating the expression never panics or fails, and the result is a two-part ciphertext that encrypts the value of the expression on the messages, with noise at most a bound computed from the expression. If that bound leaves room in the modulus, decryption and decoding return the value of the expression, as a polynomial and, with SIMD encoding, slot by slot.", "quantifier": "every expression, every level, every parameters, keys, messages, randomness and noise within the bound", "why_tests_cant": "tests exercise a few fixed short expressions; the claim ranges over all compositions", "anchors": ["crates/fhe/src/bfv/ops/mod.rs", "crates/fhe/src/bfv/ops/mul.rs Multiplicator", "crates/fhe/src/bfv/keys/evaluation_key.rs", "crates/fhe/src/bfv/rgsw_ciphertext.rs", "crates/fhe/src/bfv/ciphertext.rs switch_down"]}
{"id": "C61", "title": "The voting program reports the right tally", "statement": "Running the voting example from parameter generation to the printed result (key shares of every party, common public key, encryption of every vote, homomorphic tally, decryption shares and their aggregation) reports exactly the number of votes for, whenever that number is below the plaintext modulus 4096, for every number of parties and voters whose product is at most 2^60 and for everything the random generator returns. With 4096 or more votes for, the tally wraps around and the final assertion of the program fails.", "quantifier": "every number of parties and voters, every list of votes, every outcome of the random generator", "why_tests_cant": "the example draws one random election per run; the claim ranges over all elections, sizes and randomness", "anchors": ["crates/fhe/examples/voting.rs main", "crates/fhe/src/mbfv"]}
{"id": "C62", "title": "The bytes on the wire", "statement": "to_bytes followed by from_bytes, down to the protobuf encoding, gives back an equal object for polynomials, ciphertexts, secret, public, relinearization and evaluation keys, RGSW ciphertexts and parameters. Any byte string at all is either refused with an error or read as an object of the given parameters, without a panic, and what is accepted is well formed. Unknown protobuf fields, wherever they stand in a message, do not change how it is read, and bytes in which a declared field has another type are refused as malformed. So are bytes that do not follow the grammar of the encoding: truncated fields, groups that are not closed or are closed with another number, numbers of more than 64 bits. The empty byte string is accepted as an evaluation key without Galois keys and refused as ciphertext, secret key, public key, relinearization key, RGSW ciphertext and parameters.", "quantifier": "every object that the library can produce, every byte string, every sequence of unknown fields", "why_tests_cant": "tests round-trip a few random objects; hostile byte strings and all sizes of varints, lengths and nesting cannot be enumerated", "anchors": ["crates/fhe/src/bfv/ciphertext.rs to_bytes/from_bytes", "crates/fhe/src/bfv/keys to_bytes/from_bytes", "crates/fhe/src/bfv/rgsw_ciphertext.rs", "crates/fhe/src/bfv/parameters.rs", "crates/fhe-math/src/rq/serialize.rs", "crates/fhe/src/proto/bfv.proto", "crates/fhe-math/src/proto/rq.proto"]}
{"id": "C63", "title": "MulPIR retrieves the element asked for", "statement": "In the private information retrieval example MulPIR the client sends only serialized keys and a serialized encrypted query; for every database, every element size that fits a plaintext, every index and every outcome of the random generators, each step succeeds and the response of the server is a ciphertext under the key of the client that encrypts a message containing exactly the bytes of the element asked for, with a noise bounded in terms of parameters and matrix dimensions. If this bound leaves room, the program ends with the element asked for and its final assertion holds; this is the case for the degree and plaintext modulus of the program with the moduli that the library recommends for this degree, for every database of up to 2^24 rows.", "quantifier": "every database, element size, index, parameters with at least three moduli and an odd plaintext modulus, and outcome of the random generators", "why_tests_cant": "the example picks one random index of one generated database per run; padding of the last row, the corners of the matrix, odd sizes and the worst-case noise are not covered", "anchors": ["crates/fhe/examples/mulpir.rs main", "crates/fhe/examples/util.rs encode_database, generate_database, number_elements_per_plaintext"]}
{"id": "C64", "title": "SealPIR retrieves the element asked for, with exactly three moduli", "statement": "In the private information retrieval example SealPIR the server packs the bits of the ciphertexts of the columns into plaintexts and selects among them, and the client decrypts, reassembles a ciphertext from the bits and decrypts again. For every database, element size that fits a plaintext, index and outcome of the random generators, each step up to the responses succeeds, their number depends only on the parameters, and each is a ciphertext at the last level with a noise bounded in terms of parameters and matrix dimensions. With three moduli, if both bounds leave room at the last level, the program ends with the element asked for and its final assertion holds; this is the case for the plaintext modulus of the program, degree 8192 and three moduli of the library's tables, for every database of up to 2^22 rows. With any other number of moduli the program never succeeds.", "quantifier": "every database, element size, index, parameters with an odd plaintext modulus, and outcome of the random generators", "why_tests_cant": "the example picks one random index of one generated database per run; the packing of ciphertext bits depends on exact lengths for each pair of modulus sizes, and the noise is random", "anchors": ["crates/fhe/examples/sealpir.rs main", "crates/fhe/examples/util.rs encode_database", "crates/fhe-util/src/lib.rs transcode_bidirectional"]}
{"id": "C65", "title": "What the basic example programs print", "statement": "The example bfv_basic prints the sum of its two numbers and the slot-wise sum of its two vectors, with its own parameters, for all numbers and vectors below the plaintext modulus and all randomness. Each section of the example bfv_ops (weighted sum, inner product and evaluation of 3x^2+2x+1, with and without SIMD) prints the right value modulo the plaintext modulus whenever an explicit noise bound leaves room in the modulus; with the next larger set of default parameters the whole program prints the six right values for all inputs that fit and all randomness. In the example rgsw the external product switched to the last level and the product of the ciphertexts decode to the same slot-wise product, but the two plaintexts are never equal because they live at different levels, so the assertion of the program fails with its own parameters for all inputs and all randomness.", "quantifier": "every input vector of admissible length with values below the plaintext modulus, every parameter set with enough room, every outcome of the random generators", "why_tests_cant": "each example runs one fixed input with one random key per run; the claim ranges over all inputs, keys and noise", "anchors": ["crates/fhe/examples/bfv_basic.rs main", "crates/fhe/examples/bfv_ops.rs main", "crates/fhe/examples/rgsw.rs main", "crates/fhe/src/bfv/plaintext.rs Plaintext::eq", "crates/fhe/src/bfv/parameters.rs BfvParameters::default_parameters_128"]}
{"id": "C66", "title": "Several parties compute any circuit together", "statement": "Any number of parties, with any secret keys, make a joint public key and a joint relinearization key by aggregating their shares of each round in any order. Every computation on ciphertexts encrypted with the joint public key (sums, differences, negations, operations with plaintexts, relinearized products at level zero, switches to the next level, of any size) runs without panic or error, and if an explicit bound on its noise leaves room, the decryption shares of the parties, aggregated in any order, yield the result of the same computation on the messages; likewise their shares for switching to the public key of a recipient yield a ciphertext that the recipient decrypts to this result. With the default parameters of degree 8192 for 20-bit plaintexts this holds for a product of any two vectors among up to 2^40 parties.", "quantifier": "every number of parties, every set of secret keys, every computation, every order of the shares, every outcome of the random generators", "why_tests_cant": "a test runs five parties once on one product; the claim ranges over all computations, party counts, orders and random choices", "anchors": ["crates/fhe/src/mbfv/public_key_gen.rs PublicKeyShare", "crates/fhe/src/mbfv/relin_key_gen.rs RelinKeyGenerator", "crates/fhe/src/mbfv/secret_key_switch.rs DecryptionShare", "crates/fhe/src/mbfv/public_key_switch.rs PublicKeySwitchShare", "crates/fhe/src/bfv/ops/mul.rs Multiplicator"]}
{"id": "C67", "title": "A server that works on untrusted bytes never panics", "statement": "Whatever bytes a server is sent, and whatever sequence of operations it applies (reading ciphertexts, public keys, relinearization keys, evaluation keys and RGSW ciphertexts; encryption, arithmetic, relinearization, multiplication with and without switching, rotations, inner sum, expansion, scalar product, switching levels), every ciphertext it comes to hold has an existing level, at least two parts and valid polynomials of that level. No operation that returns a result or an error ever panics on these ciphertexts and keys; the operators panic exactly when levels or numbers of parts do not match. All these ciphertexts can be written, and the owner of the secret key can decrypt them and measure their noise. The assumptions: at most 31 ciphertext moduli with sum at most 2^65, a plaintext modulus that is at most the product of the moduli of every level, factors of at most 4096 parts, and, for keys of the last level, a digit base (which reading does not check) below 64. In contrast, a relinearized ciphertext that had a seed keeps it, although its last part is no longer the expansion of the seed: for every relinearization key there are bytes that are read as a ciphertext whose relinearization, written and read back, is another ciphertext.", "quantifier": "every byte string, every sequence of operations, every build, parameter set and key", "why_tests_cant": "tests read well-formed bytes and run fixed short sequences; the claim ranges over all byte strings and all histories of operations", "anchors": ["crates/fhe/src/bfv/ciphertext.rs Ciphertext", "crates/fhe/src/bfv/keys/relinearization_key.rs RelinearizationKey::relinearizes", "crates/fhe/src/bfv/keys/evaluation_key.rs EvaluationKey", "crates/fhe/src/bfv/rgsw_ciphertext.rs RGSWCiphertext", "crates/fhe/src/bfv/ops/mul.rs Multiplicator::multiply", "crates/fhe/src/bfv/ops/dot_product.rs dot_product_scalar"]}
{"id": "C68", "title": "Ciphertexts obey the algebraic laws exactly", "statement": "For all ciphertexts of the same level and number of parts, including ones too noisy to decrypt: addition is commutative and associative, subtraction undoes addition and equals adding the negation, negating twice changes nothing, adding a plaintext can be undone and commutes with addition, multiplying by a plaintext distributes over addition, two plaintext factors may be exchanged, and a list of ciphertexts may be added in any order; multiplication is commutative, for any numbers of parts. All of these hold for == on the results (which never have a seed), and ciphertexts that are == may be exchanged for each other.", "quantifier": "every build, parameter set, usable ciphertexts and plaintexts of one level, every order of summation", "why_tests_cant": "exact equality after rounding, representation changes and the squaring branch has to hold for all ciphertexts, not only for fresh ones", "anchors": ["crates/fhe/src/bfv/ops/mod.rs Add, Sub, Neg, Mul for Ciphertext", "crates/fhe/src/bfv/ciphertext.rs PartialEq"]}
{"id": "C69", "title": "The message enters a ciphertext only as a summand", "statement": "With the same key and the same randomness, the encryptions of two messages, each minus its own message, are the same ciphertext; their second parts and seeds are equal; and they are equal only if the messages are. This holds for secret keys and for public keys (also for one that is not an encryption of zero). For every ciphertext and every plaintext there is exactly one mask that gives this ciphertext when the plaintext is added, so a ciphertext by itself is consistent with every message.", "quantifier": "every build, parameter set, level, key, pair of messages and randomness; every ciphertext", "why_tests_cant": "independence of the mask from the message is a statement about all pairs of messages", "anchors": ["crates/fhe/src/bfv/keys/secret_key.rs SecretKey::try_encrypt", "crates/fhe/src/bfv/keys/public_key.rs PublicKey::try_encrypt", "crates/fhe/src/bfv/ops/mod.rs Add<&Plaintext>"]}
{"id": "C70", "title": "The order in which shares arrive is irrelevant", "statement": "Aggregating shares gives exactly the same result (same bytes, not only the same meaning) whatever the order of the shares: for public keys, for both rounds of relinearization keys, for switching a ciphertext to another shared key or to a public key, and for decryption. The shares may be arbitrary valid polynomials, also from parties that do not follow the protocol, as long as they name the same parameters, common random polynomial and ciphertext; the shares made by honest parties do.", "quantifier": "every build, parameter set, number of parties, list of shares and permutation of it", "why_tests_cant": "there are factorially many arrival orders and arbitrarily many parties", "anchors": ["crates/fhe/src/mbfv/public_key_gen.rs Aggregate", "crates/fhe/src/mbfv/relin_key_gen.rs Aggregate", "crates/fhe/src/mbfv/secret_key_switch.rs Aggregate", "crates/fhe/src/mbfv/public_key_switch.rs Aggregate"]}
{"id": "C71", "title": "Sampled secrets and errors are independent and have the requested variance", "statement": "Out of all equally likely choices of the random words, the fraction that yields a given vector is exactly the product over its entries of the centered binomial probabilities choose(4v, 2v + x) / 2^(4v): the entries are independent and identically distributed, whatever the length of the vector and however the samples straddle the words. Each entry has mean 0 and variance exactly v, and different entries are uncorrelated. The same holds for the coefficients of a generated secret key.", "quantifier": "every supported variance, length, number of words that suffices and target vector", "why_tests_cant": "an exact statement about all 2^(64 W) choices of the randomness; statistical tests cannot see small correlations between samples that share a word", "anchors": ["crates/fhe-util/src/lib.rs sample_vec_cbd", "crates/fhe/src/bfv/keys/secret_key.rs SecretKey::random"]}
{"id": "C72", "title": "Messages are portable between programs built differently, except what is made from a seed", "statement": "Two programs may work with different primitive roots of unity, and then hold the same polynomial differently in memory. Parameters that one wrote are read by the other with the same degree, moduli, plaintext modulus and variance; a secret key keeps its coefficients; a ciphertext without a seed, as the linear operations and switching down produce, is read as the same polynomials at the same level, so that it encrypts the same message under the same secret with the same noise, and the other program decrypts it with the key it was sent. A ciphertext with a seed is read without an error but its last polynomial is what the reader makes of the seed: for different roots it need not be the same ciphertext.", "quantifier": "every pair of builds with whatever roots, every parameters, key and ciphertext", "why_tests_cant": "a test runs one build; the roots of the other are arbitrary", "anchors": ["crates/fhe-math/src/ntt/native.rs NttOperator::new", "crates/fhe-math/src/rq/convert.rs", "crates/fhe-math/src/rq/mod.rs random_from_seed", "crates/fhe/src/bfv/ciphertext.rs to_bytes, from_bytes"]}
{"id": "C73", "title": "The tfhe-ntt feature changes no result", "statement": "With the feature tfhe-ntt the transforms are done by an external library, whose roots of unity are its own. If that library's plan evaluates at the odd powers of some primitive 2N-th root in bit-reversed order, on entries below 2p, and its inverse followed by normalize undoes this, then every operator computes, in all five transforms, what the native operator computes for some choice of the root: the same vectors, and for the lazy transform representatives below 4p of the same residues. For each dimension one native build matches the whole feature build, for every modulus, so that what is proved for all native builds holds with the feature. An operator without a plan is the native one. Operators that compare equal in one program are equal. The plan need not agree with the native operator stored next to it.", "quantifier": "every plan that meets the contract, every modulus, dimension and vector", "why_tests_cant": "the roots of the external library are unknown, and a test runs one of the two builds", "anchors": ["crates/fhe-math/src/ntt/tfhe.rs", "crates/fhe-math/src/ntt/mod.rs"]}
{"id": "C74", "title": "Wiping leaves nothing of the secret", "statement": "After zeroize, which also runs when the object is dropped, a secret key has only zero coefficients; a polynomial, in any representation and including its precomputed table, is the zero polynomial and still a valid one; a plaintext holds the zero message and equals Plaintext::zero of its encoding; a vector of plaintexts is empty and its buffer holds wiped plaintexts; a builder of evaluation keys holds a wiped key. Wiped objects of the same parameters, size, level and flags cannot be told apart, whatever they held.", "quantifier": "every secret key, valid polynomial of every context, plaintext of every level, vector of plaintexts, builder", "why_tests_cant": "a test wipes one object; that nothing is left must hold for all values, representations and sizes", "anchors": ["crates/fhe-math/src/rq/mod.rs zeroize, zeroize_shoup", "crates/fhe/src/bfv/keys/secret_key.rs zeroize", "crates/fhe/src/bfv/plaintext.rs zeroize", "crates/fhe/src/bfv/plaintext_vec.rs PlaintextVec", "crates/fhe/src/bfv/keys/evaluation_key.rs EvaluationKeyBuilder"]}
{"id": "C75", "title": "Equal objects are interchangeable", "statement": "The equality == of ciphertexts, public, relinearization and Galois keys and RGSW ciphertexts is an equivalence; it ignores whether variable-time computations are allowed and where the parameters are stored. Replacing the arguments of any operation - addition, subtraction, negation, multiplication, operations with plaintexts, modulus switching, relinearization, rotations, inner sums, expansion, external products, multiplicators, dot products, decryption, noise measurement, encryption with given randomness, serialization - by equal ones never changes the outcome: both calls panic, or both return the same error, or both return equal results. So allowing or forbidding variable time never changes a result, and keys read back from bytes serve as well as the originals. For plaintexts, equality holds exactly if level and message agree and there are not two different encodings; it is not transitive, and equal plaintexts decode alike only if they have the same stored encoding.", "quantifier": "every parameter set, every usable ciphertext, plaintext and well-formed key, every choice of timing flags", "why_tests_cant": "tests compare results with == and then use them; that == is a congruence for every operation, with all combinations of timing flags and error paths, is a statement about all pairs of inputs", "anchors": ["crates/fhe-math/src/rq/mod.rs PartialEq, allow_variable_time_computations", "crates/fhe/src/bfv/ciphertext.rs", "crates/fhe/src/bfv/plaintext.rs PartialEq", "crates/fhe/src/bfv/keys", "crates/fhe/src/bfv/ops", "crates/fhe/src/bfv/rgsw_ciphertext.rs"]}
{"id": "C76", "title": "The constant-time arithmetic is constant time", "statement": "An attacker who sees the outcome of every conditional jump, every table index and every operand of a division learns nothing from the operations documented as constant time: addition, subtraction, multiplication, negation, centering and reduction modulo a word-sized modulus show nothing; the vector operations, the number-theoretic transforms and the binomial sampler show lengths and public tables only; operations on polynomials that do not allow variable time show the context and the representation only. Whatever returns a value in the checked model returns the same value in a release build. The variable-time forms return the same values and show, for addition, whether the sum was reduced. Multiplying a vector by a scalar is an exception: it shows the scalar.", "quantifier": "all moduli, operands, vectors of one length, random words, polynomials of one context and shape", "why_tests_cant": "timing tests sample a few inputs and are noisy; that the observations are equal must hold for all pairs of secrets", "anchors": ["crates/fhe-math/src/zq/mod.rs add, sub, mul, reduce, scalar_mul_vec", "crates/fhe-math/src/ntt/native.rs forward, backward", "crates/fhe-math/src/rq/mod.rs", "crates/fhe-math/src/rq/ops.rs", "crates/fhe-util/src/lib.rs sample_vec_cbd", "crates/fhe-traits/src/lib.rs"]}
{"id": "C77", "title": "Encoding, encrypting and the shares of several parties do not reveal messages or keys through timing", "statement": "For a plaintext modulus below the first ciphertext modulus, what an attacker who measures time sees when a message is encoded, encrypted with a secret key or a public key, or decoded, is fixed by the parameters, the encoding, the number of values, the public key and the seed; the message, the secret key and the randomness have no influence. The same holds for generating a secret key and a public key, and for all shares of the multiparty protocols: of public keys, of relinearization keys in both rounds, of switching to a public key or another secret key, and of threshold decryption.", "quantifier": "all accepted parameters with t below the first modulus, messages of one length, secret keys, random words", "why_tests_cant": "a test compares the time of a few messages; the property is about all pairs of messages and keys", "anchors": ["crates/fhe/src/bfv/keys/secret_key.rs try_encrypt", "crates/fhe/src/bfv/keys/public_key.rs", "crates/fhe/src/bfv/plaintext.rs", "crates/fhe/src/mbfv"]}
{"id": "C78", "title": "What decryption and key generation reveal through timing", "statement": "Decryption is not constant time: the scaling at its end jumps on a sign once for each coefficient of the phase. What an attacker who measures time learns from a decryption is exactly this: one bit per coefficient. Equal bits give equal observations and equal observations give equal bits, and the bits do differ between values. Generating a relinearization key or a Galois key reveals nothing but the generated key, which is public.", "quantifier": "all accepted parameters (for decryption with a plaintext modulus below 2^64, for keys with at most 64 moduli), ciphertexts, secret keys and random words", "why_tests_cant": "absence of any further dependence on the secret key must hold for all keys", "anchors": ["crates/fhe/src/bfv/keys/secret_key.rs try_decrypt", "crates/fhe-math/src/rns/scaler.rs scale", "crates/fhe/src/bfv/keys/relinearization_key.rs", "crates/fhe/src/bfv/keys/galois_key.rs", "crates/fhe/src/bfv/keys/key_switching_key.rs"]}
{"id": "C79", "title": "The sizes of messages depend on public data only", "statement": "The number of bytes of a serialized object is a function of public data. A ciphertext takes as many bytes as its level, the number of its parts and the presence of a seed say; so all encryptions with secret keys at a level have one size, and all encryptions with public keys, whatever the message, the key and the randomness. A generated public key, relinearization key, evaluation key or RGSW ciphertext has a size fixed by the parameters, the levels and the requested rotations. A generated secret key has a size fixed by the degree for variances up to 31; for variance 32 its size tells how many coefficients are 64.", "quantifier": "all accepted parameters, levels, messages, keys, seeds and random words, and all well-formed objects read from the network", "why_tests_cant": "a test compares the sizes of a few messages; varint encodings make the size depend on the values in principle, so it must be shown for all values", "anchors": ["crates/fhe-math/src/rq/convert.rs", "crates/fhe-math/src/zq/mod.rs serialize_vec, serialization_length", "crates/fhe/src/bfv/ciphertext.rs to_bytes", "crates/fhe/src/bfv/keys/*.rs to_bytes", "crates/fhe/src/bfv/rgsw_ciphertext.rs to_bytes", "crates/fhe/src/proto/bfv.proto"]}
{"id": "C80", "title": "Noise of fresh encryptions is far below its worst case for almost all random choices", "statement": "A linear combination of sampled numbers exceeds a threshold T for at most a fraction 2 exp(-T^2/(2 v S)) of the words they are made from, where v is the variance and S bounds the sum of the squares of the coefficients. Hence, for every message and every secret, encryption with a generated public key has a noise of at most t (2 T + B + 1) with T^2 >= 2 v N B^2 L, for all but a fraction 4 N exp(-L) of the words of its samples; the worst case is t (2 N B^2 + B + 1). The example bfv_ops with its own parameters is correct for all inputs but for a fraction 2^-64 of the words.", "quantifier": "all accepted parameters, secrets, public keys, messages, other random streams and thresholds; the fraction is over all words of the sampled streams", "why_tests_cant": "the claim is about a fraction of 2^(64 W) choices; no test run can estimate a failure probability of 2^-64", "anchors": ["crates/fhe-util/src/lib.rs sample_vec_cbd", "crates/fhe/src/bfv/keys/public_key.rs try_encrypt", "crates/fhe/src/bfv/keys/secret_key.rs random", "crates/fhe/examples/bfv_ops.rs"]}
{"id": "C81", "title": "An operation that fails leaves the object it works on unchanged", "statement": "If switching a ciphertext to another level, adding or subtracting a ciphertext, adding, subtracting or multiplying by a plaintext, or relinearizing fails, with an error or with a panic, then the ciphertext it was called on is exactly as before, provided its parts belong to its level. The same holds for switching a polynomial to a lower level and for the settings of multiplicators and of builders of evaluation keys. Without the proviso it is false: a ciphertext one of whose parts was replaced by a part of another level can be left half switched by a call that returns an error.", "quantifier": "all accepted parameters, all ciphertexts whose parts are valid and belong to its level, the empty ciphertext, all operands of the same parameters or of other ones, all targets, whatever a panic leaves in the part it was working on", "why_tests_cant": "it is about every point at which each operation can fail on every object; a test sees the failures it provokes and rarely looks at the object afterwards", "anchors": ["crates/fhe/src/bfv/ciphertext.rs switch_down, switch_to_level", "crates/fhe/src/bfv/ops/mod.rs AddAssign, SubAssign, MulAssign", "crates/fhe/src/bfv/keys/relinearization_key.rs relinearizes", "crates/fhe/src/bfv/ops/mul.rs enable_relinearization, enable_mod_switching", "crates/fhe/src/bfv/keys/evaluation_key.rs enable_expansion, enable_column_rotation", "crates/fhe-math/src/rq/mod.rs switch_down, switch_down_to"]}
{"id": "C82", "title": "The bytes identify the object", "statement": "Two polynomials of a context, or two ciphertexts, secret keys, public keys, relinearization keys or RGSW ciphertexts of the same parameters, are written as the same bytes exactly if they are equal; two parameter sets are written as the same bytes exactly if they are the same. Two evaluation keys are equal exactly if their messages agree up to the order of the Galois keys, so equal bytes mean equal keys. Bytes that are accepted are read as an object for which canonical bytes are written, and reading and writing those changes nothing.", "quantifier": "all accepted parameters, all pairs of well-formed objects, all pairs of byte strings that are accepted", "why_tests_cant": "a collision is a statement about all pairs of objects; a test compares the pairs it has at hand", "anchors": ["crates/fhe-math/src/rq/serialize.rs to_bytes", "crates/fhe/src/bfv/ciphertext.rs to_bytes", "crates/fhe/src/bfv/keys/secret_key.rs to_bytes", "crates/fhe/src/bfv/keys/public_key.rs to_bytes", "crates/fhe/src/bfv/keys/relinearization_key.rs to_bytes", "crates/fhe/src/bfv/keys/evaluation_key.rs to_bytes", "crates/fhe/src/bfv/rgsw_ciphertext.rs to_bytes", "crates/fhe/src/bfv/parameters.rs to_bytes"]}
{"id": "C83", "title": "What release builds do where debug builds panic", "statement": "Some calls panic only because of debug assertions and overflow checks. Without these: adding, subtracting or multiplying polynomials of different levels gives the right result at the lower level if the left operand is the one of the lower level, and otherwise silently gives a valid polynomial that is right modulo the common moduli only; multiplying by a negative power of X is right for every exponent; powers of residues are right for every exponent; looking for primes below 0 or above the possible range finds none; asking for default parameters for 0 or more than 63 bits is an error; public key shares made from a common random polynomial of a lower level aggregate to a valid public key of that level.", "quantifier": "all contexts made by the constructor, all their polynomials, all 64-bit exponents and bounds, any number of parties, all random choices", "why_tests_cant": "tests are compiled with debug assertions, so they never execute these paths", "anchors": ["crates/fhe-math/src/rq/ops.rs AddAssign, SubAssign, MulAssign", "crates/fhe-math/src/rq/mod.rs multiply_inverse_power_of_x", "crates/fhe-math/src/zq/mod.rs pow", "crates/fhe-math/src/zq/primes.rs generate_prime", "crates/fhe/src/bfv/parameters.rs default_parameters_128", "crates/fhe/src/mbfv/public_key_gen.rs PublicKeyShare::new"]}
{"id": "C84", "title": "Unchecked memory accesses stay inside of their operands", "statement": "The library reads and writes memory without bounds checks in its variable-time transforms, in the scaling of residues and in dot products. For every polynomial that a program can make by calling the public functions in any order and with any arguments, the transforms, the scaling and the dot products access no memory outside of their operands and return what the code with bounds checks returns; the same holds for dot products of ciphertexts and plaintexts, whatever is passed. The transforms that take a pointer touch exactly the stated number of values behind it. Two safe functions are not safe: scaling residues accesses foreign memory in release builds exactly if more values are asked for than there are moduli left, or more residues are given than there are source moduli; and transforming, in variable time, a polynomial made from a matrix whose columns are stored in reverse order accesses memory behind the matrix.", "quantifier": "all operators, contexts, scalers and factors that the constructors return; all polynomials that any sequence of public operations makes; all ciphertexts and plaintexts; all memory contents, addresses, sizes and starting indices; both timing policies", "why_tests_cant": "an access outside of an allocation usually goes unnoticed in a test; absence has to be shown for every size, index and history of operations", "anchors": ["crates/fhe-math/src/ntt/native.rs: forward_vt, forward_vt_lazy, backward_vt", "crates/fhe-math/src/rns/scaler.rs: RnsScaler::scale, scale_new", "crates/fhe-math/src/rq/mod.rs: ntt_forward, ntt_backward, create_constant_ntt_polynomial_with_lazy_coefficients_and_variable_time", "crates/fhe-math/src/rq/convert.rs: TryConvertFrom<Array2<u64>>", "crates/fhe-math/src/rq/scaler.rs: Scaler::scale", "crates/fhe-math/src/rq/ops.rs: dot_product", "crates/fhe/src/bfv/ops/dot_product.rs: fma, dot_product_scalar"]}
{"id": "C85", "title": "Values that are not reduced modulo the plaintext modulus", "statement": "The encoders accept values that are not below the plaintext modulus t. As slots, values below 2t are encoded as their remainders modulo t and larger ones make the encoder panic (builds with debug assertions). As coefficients, the plaintext carries the values themselves modulo the modulus of the level; words at the last level, with one ciphertext modulus q, are taken modulo q if they are below 4q and make the encoder panic otherwise. Whatever polynomial a plaintext carries, decoding, encryption, addition and subtraction treat it as the plaintext of the coefficients modulo t, but if t is below the first ciphertext modulus q, of the coefficients modulo q and then modulo t; multiplication always multiplies the message by the coefficients modulo t, and the noise by the coefficients. So both agree for values below q, and above it one plaintext object can stand for two different messages.", "quantifier": "all parameters that the builder returns, levels, vectors of values, integer polynomials carried by a plaintext, ciphertexts, keys, seeds and random streams; both timing policies", "why_tests_cant": "tests encode reduced values; what happens for all other values, in each path of the encoder and of each consumer of a plaintext, is a statement about every word and every modulus chain", "anchors": ["crates/fhe/src/bfv/plaintext.rs: Plaintext::coefficients, to_poly, try_encode, try_decode", "crates/fhe/src/bfv/plaintext_vec.rs: encode_u64_chunk, encode_biguint_chunk", "crates/fhe/src/bfv/ops/mod.rs: Add, Sub, Mul with Plaintext", "crates/fhe-math/src/ntt/native.rs: forward, backward, forward_vt, backward_vt", "crates/fhe-math/src/rq/convert.rs: TryConvertFrom<Vec<u64>>"]}
{"id": "C86", "title": "A default multiplicator computes what the operators compute", "statement": "Multiplying two ciphertexts of two parts with the default multiplicator of a relinearization key gives exactly what multiplying them with * and relinearizing the product gives, and with modulus switching enabled what switching down afterwards gives: the same error, or ciphertexts equal by ==, so that optimized and plain programs agree bit for bit and not only after decryption. This holds at level 0 for all parameters, and at level i if the moduli dropped there have at most 61 bits.", "quantifier": "all parameters that the builder returns (at most 31 moduli, with sum at most 2^65), levels, well-formed relinearization keys, usable ciphertexts of two parts, equal or not, all timing flags", "why_tests_cant": "tests compare decryptions on a few parameter sets; that the two code paths choose the same basis and the same rounding for every input is a statement about the search for primes and about all ciphertexts", "anchors": ["crates/fhe/src/bfv/ops/mul.rs: Multiplicator::default, multiply, enable_mod_switching", "crates/fhe/src/bfv/ops/mod.rs: Mul<&Ciphertext> for &Ciphertext", "crates/fhe/src/bfv/keys/relinearization_key.rs: relinearizes", "crates/fhe/src/bfv/parameters.rs: BfvParametersBuilder::build (extended basis)"]}
{"id": "C87", "title": "Results permit variable-time computation exactly if what they are computed from does", "statement": "Every polynomial says whether it may be computed with in variable time. Fresh encryptions, generated evaluation, relinearization and RGSW keys, and whatever is read from bytes permit it; public keys and decrypted plaintexts do not. Each part of a sum, difference, negation, modulus switch, product with a plaintext, relinearization, rotation, inner sum, expansion, external product, multiplicator product or dot product permits it exactly if (for dot products: only if) the parts, plaintexts and keys it is computed from do; adding or subtracting a plaintext takes the permission from the first part. A product of ciphertexts permits it exactly if all parts of both factors do, unless the factors are equal by ==: then only the first factor is asked, so that a factor that forbids it can give a product that permits it. Among several parties, shares and joint public keys permit it in the first part, unlike the public keys of one party; shares for decryption, plaintexts decrypted together and joint relinearization keys do not, unlike the relinearization keys of one party.", "quantifier": "all ciphertexts, plaintexts, keys, seeds, random streams and byte strings, with any flags, for which the operation returns a result", "why_tests_cant": "equality of polynomials, ciphertexts and keys ignores the flag, so that no test that compares results can see it; the flow of the flag through every operation is a statement about all inputs", "anchors": ["crates/fhe-math/src/rq/mod.rs: allow_variable_time_computations, disallow_variable_time_computations", "crates/fhe-math/src/rq/ops.rs: AddAssign, SubAssign, MulAssign, dot_product", "crates/fhe/src/bfv/keys/key_switching_key.rs: permits_variable_time_with, configure_accumulators, key_switch", "crates/fhe/src/bfv/ops/mod.rs: Mul<&Ciphertext> for &Ciphertext", "crates/fhe/src/bfv/ops/dot_product.rs: dot_product_scalar", "crates/fhe/src/bfv/ops/mul.rs: Multiplicator::multiply", "crates/fhe/src/bfv/keys/evaluation_key.rs: computes_inner_sum, rotates_rows, rotates_columns_by, expands", "crates/fhe/src/bfv/keys/public_key.rs: PublicKey::new, try_encrypt, from_bytes", "crates/fhe/src/mbfv: PublicKeyShare::new, PublicKeySwitchShare::new, SecretKeySwitchShare::new, DecryptionShare::new, RelinKeyShare, Aggregate::from_shares"]}
{"id": "C88", "title": "Bytes written for a ring of another degree", "statement": "Reading does not compare the degree written in the bytes of a polynomial with the degree N of the context or parameters it is given. Bytes of a polynomial written with the same k moduli and another degree N' are accepted exactly if k*N' <= N: the result has as its coefficients the residues of the written polynomial, one modulus after the other, and then zeros. Otherwise they are refused with an error that gives the number of values, the degree and the number of moduli. The same holds for every written part of a ciphertext at any level (k being the number of moduli left at that level); its level and seed are kept, and a part that is expanded from the seed is the one of the parameters it is read with.", "quantifier": "all lists of moduli, all pairs of different degrees, all representations, all polynomials and all well-formed ciphertexts at all levels", "why_tests_cant": "tests read bytes back with the parameters they were written with; which foreign bytes are accepted, and as what, is a statement about all pairs of degrees and all polynomials", "anchors": ["crates/fhe-math/src/rq/convert.rs: parse_proto, TryConvertFrom<&Rq> for Poly", "crates/fhe-math/src/rq/serialize.rs: Deserialize", "crates/fhe/src/bfv/ciphertext.rs: TryConvertFrom<&CiphertextProto>, from_bytes"]}
{"id": "C89", "title": "Bytes written for other moduli", "statement": "The bytes of a polynomial do not tell its moduli, and reading compares only their number. Bytes written with the same degree and other moduli that have, place by place, as many bits, are accepted: the result is the polynomial whose residue modulo each modulus of the reader is the written residue taken modulo it; in the power basis the written residues are kept as they are, even if they are not below the modulus. Bytes written with moduli that together have another number of bits (for any degree) are refused with an error. The same holds for every written part of a ciphertext at any level, where the moduli left at that level decide; its level and seed are kept, and a part that is expanded from the seed is the one of the parameters it is read with.", "quantifier": "all pairs of lists of moduli, all degrees, all representations, all polynomials and all well-formed ciphertexts at all levels", "why_tests_cant": "tests read bytes back with the parameters they were written with; which foreign bytes are accepted, and as what, is a statement about all pairs of lists of moduli and all polynomials", "anchors": ["crates/fhe-math/src/rq/convert.rs: parse_proto, TryConvertFrom<&Rq> for Poly", "crates/fhe-math/src/rq/serialize.rs: Deserialize", "crates/fhe-math/src/zq/mod.rs: Modulus::serialization_length, deserialize_vec", "crates/fhe/src/bfv/ciphertext.rs: TryConvertFrom<&CiphertextProto>, from_bytes"]}
{"id": "C90", "title": "The errors of the parameter builder are true and complete", "statement": "When build() refuses a request for parameters, what the error says is true of the request: the degree, variance or plaintext modulus it names is the requested one and out of range; the size, modulus or position it names is one of the requested ones and has the defect it states (size out of range, modulus out of range, positions of a repeated modulus, greatest common divisor of two moduli, no prime that is 1 modulo 2N, product of the moduli not above the plaintext modulus, common divisor with the plaintext modulus); and when it says that there are not enough primes, it tells how many are needed and exactly how many there are. Parameters are built exactly if no such reason exists. When sizes are given, the moduli are determined: each is the largest prime of its size that is 1 modulo 2N and was not taken before.", "quantifier": "all requests with up to 31 moduli or sizes; for random streams with which the transforms find the roots they need", "why_tests_cant": "tests look at a few invalid requests; that every error is true, that no valid request is refused and which moduli are generated are statements about all requests and about all primes of a size", "anchors": ["crates/fhe/src/bfv/parameters.rs: BfvParametersBuilder::build, validate_configuration, generate_moduli, validate_moduli", "crates/fhe/src/errors.rs: ParametersError"]}
{"id": "C91", "title": "Release builds encode unreduced slots as another message without an error", "statement": "A release build never refuses words as slots: whatever words are given, it returns a plaintext, and that plaintext is exactly the one of some slots below the plaintext modulus. If all words are below twice the plaintext modulus, these slots are their remainders. Beyond that they are not: with every choice of parameters that has slots, a word strictly between two and four times the plaintext modulus given for slot N/4 after zeroes is returned as 2^63 modulo t (never zero) in slot 0, for which zero was given, and as the word minus 2^63 in slot N/4. Builds with debug assertions panic instead.", "quantifier": "all parameters with slots, all levels whose modulus is at least the plaintext modulus, all vectors of at most N words, both encoders (constant and variable time)", "why_tests_cant": "tests run with debug assertions, where such values panic; that release builds never fail, and what they compute instead, is a statement about all words", "anchors": ["crates/fhe/src/bfv/plaintext.rs: try_encode, try_encode_vt", "crates/fhe/src/bfv/plaintext_vec.rs: encode_u64_chunk", "crates/fhe-math/src/ntt/native.rs: NttOperator::backward, backward_vt, inv_butterfly, inv_butterfly_vt"]}
{"id": "C92", "title": "What the predefined parameters suffice for", "statement": "For predefined parameters (default_parameters_128) of degree 2048 to 16384 there is a list of sizes (degree, bits of the plaintext modulus, terms, depth), e.g. (4096, 25, 16, 1), (8192, 21, 16, 3), (16384, 19, 16, 7), such that every arithmetic computation on fresh ciphertexts (additions, subtractions, negations, products with plaintexts, relinearized products) with at most that many terms in each factor and at most that many consecutive products runs without error and decrypts to the same computation on the messages, for all random choices of keys and encryptions. A second list of sizes is for computations that also rotate rows and columns and compute inner sums, and for products with a multiplicator; e.g. the scalar product of two encrypted vectors is right for plaintext moduli of at most 23, 41 and 46 bits with the degrees 4096, 8192 and 16384. With the degree 1024 this is so for encryptions with the secret key and 21 bits, but not for those with the public key: for every plaintext modulus of at most 25 bits there are random choices with which an encryption of zero decrypts to something else, and likewise for the degree 2048 and 34 to 52 bits. For the degree 2048 and at most 36 bits this concerns at most a fraction 2^-128 of the random choices of any encryption. With these two degrees there is no relinearization key. Whatever the noise, with an odd modulus of at most 2^61 decryption returns the message plus the noise divided by the modulus and rounded.", "quantifier": "all numbers of bits, all predefined parameters, all messages, all random choices, all computations of any shape within the sizes", "why_tests_cant": "tests sample random choices and a few computations; the worst case over all random choices is never sampled, and wrong decryptions that are rare are not seen", "anchors": ["crates/fhe/src/bfv/parameters.rs: default_parameters_128", "crates/fhe/src/bfv/keys/public_key.rs: try_encrypt", "crates/fhe/src/bfv/keys/secret_key.rs: try_encrypt, try_decrypt", "crates/fhe/src/bfv/ops/mul.rs, keys/relinearization_key.rs", "crates/fhe/src/bfv/keys/evaluation_key.rs: computes_inner_sum, rotates_rows, rotates_columns_by"]}
{"id": "C93", "title": "Operations refuse exactly what they cannot do, and say what is wrong", "statement": "For each of these operations there is a list of reasons with an error each, such that the operation returns the error of the first reason that holds and succeeds if none does: switching levels, relinearization, rotations, inner sums, expansion, multiplication with a key, decryption and noise measurement, encryption with either key, scalar products with plaintexts, encoding and decoding of plaintexts, making ciphertexts from polynomials, relinearization keys, evaluation key builders, multiparty shares. The errors carry the values and limits that are the matter (levels, numbers of parts, sizes, steps). Two of them mislead: making a ciphertext from polynomials of different levels names level 0 whatever their levels, and a relinearization key with a key level above its ciphertext level is made without an error and then refuses every ciphertext it is for.", "quantifier": "all parameters, all keys, all ciphertexts (of the same or other parameters, any level, any number of parts), all plaintexts, all levels, sizes and steps, all random choices", "why_tests_cant": "tests try one wrong argument at a time; that nothing else is refused, and which error wins when several things are wrong, depends on all combinations", "anchors": ["crates/fhe/src/errors.rs", "crates/fhe/src/bfv/ciphertext.rs: new, switch_down, switch_to_level, validate_for", "crates/fhe/src/bfv/keys/relinearization_key.rs", "crates/fhe/src/bfv/keys/evaluation_key.rs", "crates/fhe/src/bfv/ops/dot_product.rs", "crates/fhe/src/bfv/plaintext.rs", "crates/fhe/src/mbfv/*.rs"]}
{"id": "C94", "title": "Nothing depends on the order of hash tables, except the bytes of an evaluation key", "statement": "The hash tables of the standard library are iterated in an order that differs from run to run. An evaluation key whose tables are in another order answers every call with the same value or error, equals the same keys, and is made by the builder in whatever order it goes through its exponents. It is written as the same number of bytes in every order, and these are read as an equal key; but two different orders of its Galois keys always give different bytes, so the bytes of a key with two Galois keys or more are not reproducible. The predefined parameters, made from a hash table, come in the same order with the same values in every run.", "quantifier": "all parameters, all well-formed evaluation keys, all orders of their tables, all ciphertexts, steps and sizes, all orders of iteration of the set of exponents and of the table of predefined parameters", "why_tests_cant": "a test sees the one order of its run; the number of orders is the factorial of the number of entries", "anchors": ["crates/fhe/src/bfv/keys/evaluation_key.rs: EvaluationKey, EvaluationKeyBuilder::build, From<&EvaluationKey>", "crates/fhe/src/bfv/parameters.rs: default_parameters_128"]}
{"id": "C95", "title": "Rounding in floating-point computations does not matter", "statement": "The square root by which the examples of private information retrieval shape their database, computed in floating point and rounded up, is the least number whose square is not smaller than the number of rows, for every number of rows below 2^52. The sample variance computed in floating point panics exactly for fewer than two values, is exactly zero for equal values, and otherwise differs from the exact sample variance by a factor between (1-2^-53)^(n+4) and (1+2^-53)^(n+4) and at most the square of a part of 2^53 of the mean.", "quantifier": "all numbers of rows below 2^52; all lists of integers whose length and sum of absolute bounds are at most 2^53; every choice between two nearest floating-point numbers in each operation", "why_tests_cant": "tests compare floating-point results on a few inputs with a tolerance; that no input rounds the wrong way needs an argument for all", "anchors": ["crates/fhe-util/src/lib.rs: variance", "crates/fhe/examples/util.rs: encode_database"]}
{"id": "C96", "title": "Rotations compose", "statement": "Any number of row and column rotations that an evaluation key supports succeed one after the other on a ciphertext of two parts, the noise grows by at most one key-switching error per rotation, and the slots of the result depend only on the total number of columns and on the number of row exchanges: sequences with the same total modulo half the degree and the same parity of exchanges decrypt to the same message, full turns and even numbers of exchanges give the message back, and a key that supports inner sums suffices to bring any slot to any place with at most log2 of the degree rotations.", "quantifier": "all parameter sets, keys, levels, ciphertexts with room for the noise, and all finite sequences of supported rotations", "why_tests_cant": "tests rotate once by a few amounts; sequences are unbounded and their effect needs the group structure of the slots", "anchors": ["crates/fhe/src/bfv/keys/evaluation_key.rs: EvaluationKey::rotates_rows, rotates_columns_by, supports_row_rotation, supports_column_rotation_by, supports_inner_sum"]}
{"id": "C97", "title": "Telling encryptions apart is as hard as learning with errors", "statement": "Take any adversary that looks at the ciphertexts of a list of messages under a random key (for public keys also at the public key) and answers yes or no. The probabilities of yes for two lists of messages differ at most by the sum of the differences between its answers to ciphertexts put together from samples of ring learning with errors and its answers to ciphertexts put together from uniformly distributed coefficients. The samples have the secret, the errors and the public polynomials that the library draws: for secret keys one sample with the key as secret for every ciphertext; for public keys one sample for the key and two samples with a fresh secret for every ciphertext. Putting ciphertexts together takes only conversions and additions of the library.", "quantifier": "every build, parameter set, level (for public keys level 0), number and choice of messages, adversary, and number of random words; probabilities over all random words and seeds", "why_tests_cant": "adversaries are arbitrary functions and probabilities range over all random choices", "anchors": ["crates/fhe/src/bfv/keys/secret_key.rs SecretKey::random, SecretKey::encrypt_poly, try_encrypt", "crates/fhe/src/bfv/keys/public_key.rs PublicKey::new, try_encrypt"]}
{"id": "C98", "title": "A joint public key hides messages if one party is honest and the others choose first", "statement": "Several parties make a public key from shares for a common random polynomial with uniformly distributed coefficients. If one party makes its share honestly and the others fix theirs without seeing it, then any adversary that sees the polynomial, all shares and the encryptions of a list of messages tells two lists of messages apart at most as well as it tells samples of ring learning with errors from uniform coefficients: one sample for the share of the honest party, and two for every ciphertext. If a party may choose its share after seeing those of the others there is no such protection: it can make the joint public key one for a secret key of its own, and then decrypts every encryption alone.", "quantifier": "every build, parameter set, number of parties, position of the honest party, strategy of the other parties, messages and adversary; for the limitation every list of shares of the other parties and every secret key", "why_tests_cant": "strategies and adversaries are arbitrary functions, and probabilities range over all random choices", "anchors": ["crates/fhe/src/mbfv/public_key_gen.rs PublicKeyShare::new, from_shares", "crates/fhe/src/mbfv/crp.rs CommonRandomPoly", "crates/fhe/src/bfv/keys/public_key.rs try_encrypt"]}
{"id": "C99", "title": "Decrypting a chosen ciphertext gives the secret key away", "statement": "A limitation a user must know: decryption, alone or with several parties, must not be offered for ciphertexts that others choose. For every parameter set in which decryption is reliable there is a ciphertext, made without any key, whose decryption decodes to the coefficients of the secret key it was decrypted with. For every parameter set with enough room there is a ciphertext such that the decryption share of any party for it determines the coefficients of that party's secret key, whatever error is drawn, because the error of a share is only as large as that of a fresh encryption.", "quantifier": "every build, parameter set, secret key with small coefficients and random choice", "why_tests_cant": "one ciphertext must work for every secret key and every random choice", "anchors": ["crates/fhe/src/bfv/keys/secret_key.rs try_decrypt", "crates/fhe/src/mbfv/secret_key_switch.rs DecryptionShare::new, SecretKeySwitchShare::new (TODO on the size of the error)", "crates/fhe/src/bfv/ciphertext.rs Ciphertext::new", "crates/fhe/src/bfv/plaintext.rs try_decode"]}
{"id": "C100", "title": "Encryptions that share random choices reveal the difference of their messages", "statement": "If a generator gives the same seed for two encryptions with a secret key, or the same secret polynomial and the same error of the second part for two encryptions with a public key, then the difference of the two ciphertexts, computed with the library, decrypts to the difference of the messages with every secret key, also one that has nothing to do with the encryptions. The other errors may differ. So callers must never let a generator return to an earlier state.", "quantifier": "every build, parameter set with room for the noise, level (for public keys level 0), pair of messages, keys, seed and random words", "why_tests_cant": "it holds for every key that decrypts and every choice of the other random words", "anchors": ["crates/fhe/src/bfv/keys/secret_key.rs encrypt_poly, try_encrypt, try_decrypt", "crates/fhe/src/bfv/keys/public_key.rs try_encrypt", "crates/fhe/src/bfv/ops/mod.rs Sub"]}
{"id": "C101", "title": "Shares for switching to a public key hide the key of the party from all but the owner of that public key", "statement": "A party that helps to switch ciphertexts to the public key of somebody else publishes a share for each. Whoever does not own the secret key of that public key learns nothing about the secret key of the party: telling the shares from shares that are put together without the secret key, from the first part of the ciphertext and uniformly distributed polynomials, is at least as hard as telling samples of learning with errors apart from uniform ones, for any ciphertexts at the first level. The owner of the public key is not kept from it: there is a ciphertext, which anyone can make, from whose share the owner computes all coefficients of the secret key of the party.", "quantifier": "every build, parameter set (with room for the noise for the second part), number of ciphertexts and words, secret keys, ciphertexts, and every adversary; for the second part all keys with bounded coefficients and all random words", "why_tests_cant": "it speaks about every adversary and about probabilities over all random choices", "anchors": ["crates/fhe/src/mbfv/public_key_switch.rs PublicKeySwitchShare::new", "crates/fhe/src/bfv/keys/public_key.rs PublicKey::new"]}
{"id": "C102", "title": "Shares for decrypting ciphertexts with uniformly distributed second parts hide the key of the party", "statement": "A party publishes shares for the decryption of ciphertexts whose second parts are uniformly distributed and whose first parts are any function of the second parts, at any level. The shares never fail, and each is exactly a sample of learning with errors: the second part times the secret key of the party, plus a fresh small error. So an adversary tells the shares from shares with uniformly distributed coefficients, in which nothing of the key is left, exactly as well as it tells those samples from uniform ones. (C99 shows that the condition on the second parts is needed: the share of a chosen ciphertext reveals the key.)", "quantifier": "every build, parameter set, level, number of ciphertexts and words, every dependence of first parts on second parts, and every adversary; probabilities over all keys, second parts and errors", "why_tests_cant": "it speaks about every adversary and about probabilities over all random choices", "anchors": ["crates/fhe/src/mbfv/secret_key_switch.rs DecryptionShare::new", "crates/fhe/src/mbfv/secret_key_switch.rs SecretKeySwitchShare::new", "crates/fhe/src/bfv/keys/secret_key.rs SecretKey::random"]}
{"id": "C103", "title": "Some results of computations on ciphertexts are readable without the key, and no operation refuses to produce them", "statement": "Call a ciphertext open if all of its parts but the first are zero. All secret keys of the parameters, also those that were never used, decrypt an open ciphertext to the same plaintext. A ciphertext minus itself, and the product of a ciphertext and a plaintext that holds zero, are computed without an error, have all parts zero and so are open: every key decrypts them to zero, and what comes of adding a plaintext to them to that plaintext. Sums, differences, negations, products with plaintexts and products of open ciphertexts are open; the product of a ciphertext that is zero and any other is zero. An open ciphertext that is switched to the next level stays open.", "quantifier": "every build, parameter set, level, number of parts, ciphertexts and plaintexts that can be used, also ciphertexts that do not decrypt, and every pair of secret keys", "why_tests_cant": "it speaks about all secret keys and all ciphertexts", "anchors": ["crates/fhe/src/bfv/ops/mod.rs Sub for &Ciphertext", "crates/fhe/src/bfv/ops/mod.rs Mul<&Plaintext> for &Ciphertext", "crates/fhe/src/bfv/ops/mod.rs Mul<&Ciphertext> for &Ciphertext", "crates/fhe/src/bfv/keys/secret_key.rs SecretKey::try_decrypt"]}
