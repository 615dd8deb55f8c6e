{"id": "C01", "title": "128-bit add/sub/neg/mul are arithmetic modulo 2^128", "statement": "For any two u128_t values, a+b, a-b, -a and a*b (two 64-bit limb emulation) are exactly the sum, difference, negation and product modulo 2^128; the full 64x64 multiplication returns the exact 128-bit product split in high and low words.", "quantifier": "all pairs of 128-bit values (2^256 inputs)", "why_tests_cant": "carry/borrow propagation between limbs fails only on sparse operand patterns; the test only feeds operands with zero high limb", "anchors": ["include/raccoon/internals/math/u128.hpp:operator+,operator-,operator*", "include/raccoon/internals/math/u64.hpp:mul_full_u64"]}
{"id": "C02", "title": "128-bit division and remainder are Euclidean division", "statement": "For any u128_t n and any non-zero u128_t m, n/m and n%m are the floor quotient and the remainder, and no shift in the shift-subtract loop is out of range. A zero divisor is not detected: 0/0 yields 1 with remainder 0, n/0 yields 2^bitlength(n)-1 with remainder n.", "quantifier": "all 128-bit n and m", "why_tests_cant": "2^256 input pairs; loop trip count depends on bit widths", "anchors": ["include/raccoon/internals/math/u128.hpp:divmod,get_bit_index_of_set_msb,operator/,operator%"]}
{"id": "C03", "title": "128-bit shifts, rotations, comparisons and bit operations", "statement": "For every value and every n<=128, << and >> are multiplication by 2^n modulo 2^128 and floor division by 2^n, rotl(n) and rotr(n) are rotations and inverse to each other; >, <, >=, <=, == are the order/equality of the values; | and & are bitwise.", "quantifier": "all 128-bit values, all shift amounts 0..128", "why_tests_cant": "every (value, amount) pair matters, boundary amounts 0, 64 and 128 take separate branches", "anchors": ["include/raccoon/internals/math/u128.hpp:operator<<,operator>>,rotl,rotr,operator>,operator=="]}
{"id": "C04", "title": "Portable limb back-end and compiler __int128 back-end agree", "statement": "Whenever the __int128 code path is free of undefined behaviour, it returns the same value as the two-limb path for every operation; rotl(0)/rotr(0), documented as allowed (n<=128), shift an __int128 by 128 and are undefined in the __int128 build only. Barrett reduction and the field operations built on it agree on every input, so both builds of the library compute the same function.", "quantifier": "all operands and all shift amounts, both build configurations", "why_tests_cant": "a single build of the tests runs only one of the two configurations, and UB need not be visible in a run", "anchors": ["include/raccoon/internals/math/u128.hpp:USE_INT128_TYPE branches"]}
{"id": "C05", "title": "Zq addition, subtraction, multiplication are exact modulo q and canonical", "statement": "For canonical a,b (raw value < q), a+b, a-b and a*b are canonical and congruent to the integer sum, difference and product modulo q = (2^24-2^18+1)(2^25-2^18+1); hence Zq operations form the commutative ring Z/qZ.", "quantifier": "all pairs of canonical residues (about 2^98 pairs)", "why_tests_cant": "Barrett off-by-one errors show up on a vanishing fraction of operands", "anchors": ["include/raccoon/internals/math/field.hpp:reduce_once,operator+,operator-,operator*"]}
{"id": "C06", "title": "Zq negation", "statement": "For canonical a, -a is congruent to the negation of a; its raw value is canonical exactly when a != 0 (for a = 0 the library returns the non-canonical representative q, so -zero() != zero()), and every use a+(-b) is nevertheless canonical.", "quantifier": "all canonical residues", "why_tests_cant": "only one input in 2^49 exhibits it", "anchors": ["include/raccoon/internals/math/field.hpp:operator-"]}
{"id": "C07", "title": "Barrett reduction is correct on its whole 98-bit input range", "statement": "Reduction of any 98-bit value v returns v mod q; in particular the reduction of any uniformly drawn 64-bit word is canonical, and a random polynomial has canonical coefficients taken from consecutive 8-byte words of the generator.", "quantifier": "all v < 2^98", "why_tests_cant": "2^98 inputs; error term depends on the precomputed constant R", "anchors": ["include/raccoon/internals/math/field.hpp:barrett_reduce,R,random"]}
{"id": "C08", "title": "Zq inversion and division", "statement": "For canonical a, inv() reports invertible iff gcd(a,q)=1, then returns the canonical b with a*b=1 mod q; otherwise it returns (0,no). a/b returns a*b^-1 under the same flag. No signed 64-bit overflow happens inside the extended Euclid loop, which terminates.", "quantifier": "all canonical residues (q is composite, so non-units exist)", "why_tests_cant": "non-units are about 2^-24 of the inputs; signed overflow is invisible UB", "anchors": ["include/raccoon/internals/math/field.hpp:xgcd,inv,operator/"]}
{"id": "C09", "title": "Zq exponentiation", "statement": "a ^ n is a^n mod q, canonical, for every canonical a and every 64-bit exponent n, including 0.", "quantifier": "all residues and all n < 2^64", "why_tests_cant": "2^113 inputs; test uses a single exponent", "anchors": ["include/raccoon/internals/math/field.hpp:operator^"]}
{"id": "C10", "title": "Zq / polynomial left shift", "statement": "x << off returns x*2^off mod q whenever x*2^off < 2^64 (which covers every use in signing and verification); for canonical x with x*2^off >= 2^64 the result is in general NOT x*2^off mod q (bits are lost before reduction), contrary to the documented contract; off>=64 is undefined.", "quantifier": "all canonical residues and all offsets below 64", "why_tests_cant": "only some (value, offset) pairs overflow, and the tests never call it directly", "anchors": ["include/raccoon/internals/math/field.hpp:operator<<", "include/raccoon/internals/polynomial/poly.hpp:operator<<"]}
{"id": "C11", "title": "NTT and inverse NTT are mutually inverse", "statement": "For every polynomial with canonical coefficients, iNTT(NTT(f)) = f and NTT(iNTT(f)) = f, outputs are canonical and all array/twiddle-table indices are in range.", "quantifier": "all polynomials of 512 canonical coefficients", "why_tests_cant": "q^512 inputs", "anchors": ["include/raccoon/internals/polynomial/poly.hpp:ntt,intt,POWERS_OF_ζ,NEG_POWERS_OF_ζ,INV_N"]}
{"id": "C12", "title": "NTT evaluates at the odd powers of ζ", "statement": "Coefficient i of NTT(f) is f(ζ^(2*bitrev9(i)+1)) modulo q, where ζ^512 = -1.", "quantifier": "all polynomials and all 512 output positions", "why_tests_cant": "q^512 inputs", "anchors": ["include/raccoon/internals/polynomial/poly.hpp:ntt,bit_rev,gen_powers_of_ζ"]}
{"id": "C13", "title": "Pointwise product in NTT domain is negacyclic multiplication", "statement": "iNTT(NTT(f) * NTT(g)) is f*g modulo (x^512+1, q) for all f, g.", "quantifier": "all pairs of polynomials", "why_tests_cant": "q^1024 inputs", "anchors": ["include/raccoon/internals/polynomial/poly.hpp:operator*,ntt,intt"]}
{"id": "C14", "title": "Rounding shift right", "statement": "rounding_shr<nu> maps each canonical coefficient x to floor((x + 2^(nu-1)) / 2^nu) mod floor(q/2^nu), and the result lies in [0, floor(q/2^nu)), for nu = 42 and 44.", "quantifier": "all canonical coefficients, both shifts used by the library", "why_tests_cant": "the wrap-around case is a tiny boundary interval", "anchors": ["include/raccoon/internals/polynomial/poly.hpp:rounding_shr,reduce_once_mod"]}
{"id": "C15", "title": "Centering and un-centering are inverse", "statement": "center<q'> maps x in [0,q') to the representative of x mod q' in [-(q'/2), q'/2], from_centered<q'> maps it back, for q' = q and q' = floor(q/2^44), and no signed overflow occurs.", "quantifier": "all coefficients", "why_tests_cant": "boundary coefficients at q'/2", "anchors": ["include/raccoon/internals/polynomial/poly.hpp:center,from_centered", "include/raccoon/internals/signature.hpp:sig_t,get_h,get_z"]}
{"id": "C16", "title": "Small-modulus addition and subtraction", "statement": "add_mod<q'> and sub_mod<q'> are addition/subtraction modulo q' on [0,q'), so y + (w - y) = w for all w,y: the hint computed by the signer makes the verifier recover the signer's commitment.", "quantifier": "all polynomials with coefficients in [0,q')", "why_tests_cant": "q'^1024 input pairs", "anchors": ["include/raccoon/internals/polynomial/poly.hpp:add_mod,sub_mod"]}
{"id": "C17", "title": "Uniform rejection sampling of matrix entries (sampleQ)", "statement": "The buffered sampler returns exactly the first 512 values below q among the consecutive 7-byte little-endian words (low 49 bits) of the SHAKE256 stream of header||seed; every coefficient is canonical; no buffer index is out of range; it terminates on every stream containing 512 acceptable words.", "quantifier": "all headers, seeds and XOF output streams", "why_tests_cant": "the refill logic at the 136-byte block edge must be right for every pattern of rejections", "anchors": ["include/raccoon/internals/polynomial/poly.hpp:sampleQ", "include/raccoon/internals/polynomial/poly_mat.hpp:expandA"]}
{"id": "C18", "title": "Challenge polynomial has exactly ω coefficients ±1", "statement": "When it returns, the challenge polynomial has exactly ω non-zero coefficients, each 1 or q-1, is a function of the challenge hash only, and the sampler terminates whenever the XOF stream mentions ω distinct positions.", "quantifier": "all challenge hashes and XOF streams, each ω", "why_tests_cant": "collisions of positions happen in arbitrary patterns", "anchors": ["include/raccoon/internals/polynomial/poly.hpp:chal_poly"]}
{"id": "C19", "title": "Centered uniform noise (sampleU)", "statement": "sampleU<u> maps the XOF stream to coefficients in [-2^(u-1), 2^(u-1)), each the two's complement reading of the low u bits of consecutive ceil(u/8)-byte little-endian words.", "quantifier": "all streams, all u in 1..63", "why_tests_cant": "sign handling of the top bit for every u", "anchors": ["include/raccoon/internals/polynomial/masked_poly.hpp:sampleU"]}
{"id": "C20", "title": "Zero encoding decodes to zero", "statement": "For every power-of-two share count d and every mask-generator state, the sharing produced by zero_encoding decodes to the zero polynomial, share coefficients are canonical, only mask generators with index < d-1 are asked for, and no share index is out of range.", "quantifier": "all d = 2^m, all generator states", "why_tests_cant": "all mask values; the test covers only the one deterministic mask stream", "anchors": ["include/raccoon/internals/polynomial/masked_poly.hpp:zero_encoding", "include/raccoon/internals/polynomial/poly.hpp:sample_polynomial", "include/raccoon/internals/rng/mrng.hpp:get"]}
{"id": "C21", "title": "Refresh preserves the shared value", "statement": "Refreshing any canonical d-sharing (polynomial or vector) leaves the decoded value unchanged, and share coefficients stay canonical.", "quantifier": "all d = 2^m, all sharings, all generator states", "why_tests_cant": "the test only refreshes sharings of zero", "anchors": ["include/raccoon/internals/polynomial/masked_poly.hpp:refresh,decode", "include/raccoon/internals/polynomial/poly_vec.hpp:refresh,decode"]}
{"id": "C22", "title": "Masked noise addition is a sum of uniforms", "statement": "add_rep_noise changes the decoded polynomial by exactly the sum, over all repetitions and shares, of the sampled noise polynomials (mod q), each noise coefficient is within [-2^(u-1),2^(u-1)), and the resulting coefficients are canonical.", "quantifier": "all sharings, all PRNG and mask streams, all d, rep, u", "why_tests_cant": "negative sums and sums above q are boundary cases", "anchors": ["include/raccoon/internals/polynomial/masked_poly.hpp:add_rep_noise,sampleU"]}
{"id": "C23", "title": "Masked matrix-vector product commutes with unmasking", "statement": "Decoding A*[[x]] equals A*decode([[x]]), and likewise decode([[x]]*c), decode([[x]]+[[y]]) and NTT/iNTT of sharings commute with decode.", "quantifier": "all matrices, all sharings, all dimensions and d", "why_tests_cant": "all inputs", "anchors": ["include/raccoon/internals/polynomial/poly_mat.hpp:operator*", "include/raccoon/internals/polynomial/poly_vec.hpp:operator*,operator+,ntt,intt"]}
{"id": "C24", "title": "Public key bytes round trip", "statement": "Decoding an encoded public key returns the same seed and t for every t with 7-bit coefficients, and encoding a decoded byte string returns the same bytes: every byte string of the right length is the encoding of exactly one public key.", "quantifier": "all seeds, all t, all byte strings, all k", "why_tests_cant": "8^(2000) inputs; bit packing across bytes", "anchors": ["include/raccoon/internals/utility/serialization.hpp:encode_public_key,decode_public_key", "include/raccoon/internals/public_key.hpp:to_bytes,from_bytes"]}
{"id": "C25", "title": "Secret key bytes round trip", "statement": "Deserialising a serialised secret key yields the same public key and a sharing that decodes to the same secret vector (identical for d=1), for every d, PRNG output and canonical key; no buffer access is out of range. Loading any byte string of the right length is defined; the result has reduced coefficients iff all stored 49-bit fields are below q, which is not checked.", "quantifier": "all canonical keys, all d, all PRNG outputs", "why_tests_cant": "the test covers only d=1 and random data; the 49-bit packing crosses byte borders differently for every coefficient", "anchors": ["include/raccoon/internals/utility/serialization.hpp:mask_compress,mask_decompress", "include/raccoon/internals/secret_key.hpp:to_bytes,from_bytes"]}
{"id": "C26", "title": "Serialised secret keys are masked", "statement": "The stored share-0 payload should be blinded by the d-1 seeds. In the code it is not: the sampled mask is discarded, so for every PRNG output the payload is the plain encoding of the unmasked secret and a deserialised key has all-zero shares 1..d-1.", "quantifier": "all canonical keys, all d, all PRNG outputs", "why_tests_cant": "a round-trip test passes whether or not the masks are applied", "anchors": ["include/raccoon/internals/utility/serialization.hpp:mask_compress,mask_decompress", "include/raccoon/internals/polynomial/poly.hpp:sampleQ"]}
{"id": "C27", "title": "Signature bytes round trip", "statement": "If encode_sig returns true for (c_hash,h,z) (any magnitudes) then decode_sig of the bytes returns true with the same (c_hash,h,z), without undefined behaviour: an encoder run that returns success is always lossless.", "quantifier": "all hashes, hint vectors, response vectors and byte budgets", "why_tests_cant": "variable-length code: bit offsets depend on the whole prefix; test encodes all-zero vectors only", "anchors": ["include/raccoon/internals/utility/serialization.hpp:encode_sig,decode_sig", "include/raccoon/internals/signature.hpp:to_bytes,from_bytes"]}
{"id": "C28", "title": "Signature encoding succeeds exactly when it fits", "statement": "Whenever encode_sig has defined behaviour it returns true iff the hash plus the specified bit encoding of h and z fits in the fixed signature length; on success the output is that encoding padded with zeros, whatever the buffer held before; it never writes out of bounds, and it is defined for |h_i| and |z_i| below explicit bounds. Exactly: it returns true with bytes b iff the coefficients are encodable (no code word fills the 64-bit window from its byte boundary, and the last response leaves 8 bits of it free) and b is the specified encoding; and if the encoding fits, it is undefined iff the coefficients are not encodable. Also when it does not fit: it is undefined iff a listed trap (64 or more ones in a code word, or a full window at the next flush) comes before the encoder notices that it ran out of room, and otherwise returns false.", "quantifier": "all hint/response vectors in range and all lengths", "why_tests_cant": "exact-fit and one-bit-over cases", "anchors": ["include/raccoon/internals/utility/serialization.hpp:encode_sig"]}
{"id": "C29", "title": "Signature decoding is canonical (no encoding malleability)", "statement": "If decode_sig accepts a byte string then the bytes are exactly the specified encoding of the returned (c_hash,h,z) followed by zero padding; therefore two different byte strings never decode to the same signature.", "quantifier": "all byte strings", "why_tests_cant": "2^92192 byte strings", "anchors": ["include/raccoon/internals/utility/serialization.hpp:decode_sig,decode_bits_as_hint_coeff,decode_bits_as_response_coeff"]}
{"id": "C30", "title": "Signature decoding is safe on adversarial input", "statement": "decode_sig (hence verify) should have defined behaviour on every byte string. It does not: a hint or response coefficient whose unary run fills the 64-bit window makes the code shift by >= 64 bits (directly, or after the bit counter underflows). It is defined whenever the payload bits have no 16 consecutive ones and no one among the last 41 bits; it is undefined for every hash followed by ff ff ff ff ff ff ff 3f and any continuation, and so is verify. Exactly: it accepts with result (c,h,z) iff the bytes are the specified encoding and every code word lies in the 64 bits from the byte boundary at or before it (a hint code word has fewer than 64 bits); it is undefined iff the payload consists of readable coefficients followed by one of the listed traps; otherwise it returns false.", "quantifier": "all byte strings", "why_tests_cant": "the offending inputs are adversarial; sanitizer runs on random data do not reach them", "anchors": ["include/raccoon/internals/utility/serialization.hpp:decode_sig,get_bit_at"]}
{"id": "C31", "title": "Large responses pass the norm check but make encoding undefined", "statement": "A response coefficient of magnitude >= 22*2^40 is never encoded with success, and if its encoding would fit the buffer the behaviour is undefined, although for each parameter set some such signature passes the norm check; decoding never yields |h_i| > 61 or |z_i| >= 23*2^40, so the infinity-norm test on z in verify can never be what rejects a signature. Everything the encoder can write the decoder can read, but not conversely: 22*2^40 is read back at a byte boundary and cannot be written.", "quantifier": "all response vectors within the norm bound", "why_tests_cant": "probability negligible under honest sampling", "anchors": ["include/raccoon/internals/utility/serialization.hpp:encode_sig", "include/raccoon/internals/signature.hpp:check_bounds"]}
{"id": "C32", "title": "Norm check decides the specified bounds", "statement": "check_bounds<Binf,B22> returns true iff max|h| <= floor(Binf/2^nu_w), max|z| <= Binf and 2^(2nu_w-64)*sum h^2 + sum floor(|z|/2^32)^2 <= B22, computed over the integers (no wrap-around changes the decision), for each parameter set and every h and centered z.", "quantifier": "all h in int64, all z in the centered range", "why_tests_cant": "wrap-around and modular-comparison cases", "anchors": ["include/raccoon/internals/signature.hpp:check_bounds"]}
{"id": "C33", "title": "Every signature produced verifies", "statement": "For every honestly generated key (any entropy), any number of refreshes and serialisation round trips, and every message: if sign returns, verify with the matching public key returns true.", "quantifier": "all parameter sets, keys, messages, entropies, XOF/permutation functions, all numbers of signing retries", "why_tests_cant": "tests sample a few keys and messages; rejection loop histories are unbounded", "anchors": ["include/raccoon/internals/secret_key.hpp:sign", "include/raccoon/internals/public_key.hpp:verify"]}
{"id": "C34", "title": "Verification decision", "statement": "verify returns true iff the bytes parse, the norms are in bounds and the challenge hash recomputed from w = round(A z - 2^nu_t c t) + h mod floor(q/2^nu_w) over Z_q[x]/(x^512+1) equals the transmitted one. In bytes: for any public key bytes, an accepted signature is the canonical encoding of a triple (c_hash, h, z) that is valid for those bytes and the message, and conversely the encoding of every valid triple with |z_i| < 15*2^40 is accepted once the sampling budget suffices. Exactly: with sufficient budget verify accepts iff the bytes are the specified encoding of a valid triple whose responses lie in the decoder's 64-bit window; it is undefined iff the bytes are shorter than the hash or their payload leads into a listed trap; and if the samplers finish, it answers on everything else.", "quantifier": "all public key byte strings, messages, signature byte strings", "why_tests_cant": "all inputs", "anchors": ["include/raccoon/internals/public_key.hpp:verify"]}
{"id": "C35", "title": "Signing loop returns only acceptable signatures and keeps the secret", "statement": "At every iteration of the signing loop the working sharing decodes to the key's secret; the loop only returns bytes that were successfully encoded from a signature within the norm bounds; the output does not depend on the previous content of the output buffer.", "quantifier": "all loop iterations/retries", "why_tests_cant": "unbounded retry histories", "anchors": ["include/raccoon/internals/secret_key.hpp:sign"]}
{"id": "C36", "title": "Signing response and hint equations", "statement": "The signature accepted by sign consists of c_hash = H(w,mu), z = c*s + r and h = w - round(A z - 2^nu_t c t) mod q', w = round(A r + e), for small r and e drawn from the PRNG.", "quantifier": "all keys, messages, entropies", "why_tests_cant": "all inputs", "anchors": ["include/raccoon/internals/secret_key.hpp:sign"]}
{"id": "C37", "title": "Key generation yields an LWE public key with a small secret", "statement": "generate produces t = round(A s + e) with A expanded from the seed, where every coefficient of decode(s) and e is a sum of d*rep values in [-2^(u_t-1), 2^(u_t-1)); the public key stores the given seed and t coefficients below floor(q/2^nu_t).", "quantifier": "all seeds, entropies and share counts", "why_tests_cant": "all inputs", "anchors": ["include/raccoon/internals/secret_key.hpp:generate"]}
{"id": "C38", "title": "Refreshing a secret key keeps its meaning", "statement": "skey.refresh() leaves the public key and the decoded secret unchanged for any number of refreshes.", "quantifier": "all keys, all numbers of refreshes", "why_tests_cant": "unbounded histories", "anchors": ["include/raccoon/internals/secret_key.hpp:refresh"]}
{"id": "C39", "title": "Mask generators are independent", "statement": "The d-1 mask generators should produce different streams and fresh masks should depend on fresh entropy. In the code the constructor initialises a copy: all generators start from the default state, so all indices and all instances produce one and the same fixed sequence.", "quantifier": "all d, all indices, all instances, all read histories", "why_tests_cant": "a statistical or round-trip test on decoded values cannot see it", "anchors": ["include/raccoon/internals/rng/mrng.hpp:mrng_t,get"]}
{"id": "C40", "title": "Challenge hash input is an injective framing", "statement": "chal_hash feeds SHAKE256 exactly 'h'||k||0^6 || low bytes of all k*512 coefficients || mu, whatever the block buffering, and two different (w,mu) with coefficients below 256 give different hash inputs.", "quantifier": "all w, mu, k", "why_tests_cant": "block-boundary buffering", "anchors": ["include/raccoon/internals/polynomial/challenge.hpp:chal_hash"]}
{"id": "C41", "title": "Message and key binding", "statement": "Signer and verifier derive the same mu = H(H(pk bytes)||msg) from equal public keys and messages; the hash inputs differ whenever public key bytes, or (with the same key digest) messages, differ.", "quantifier": "all keys and messages of any length", "why_tests_cant": "arbitrary lengths", "anchors": ["include/raccoon/internals/secret_key.hpp:sign", "include/raccoon/internals/public_key.hpp:verify"]}
{"id": "C42", "title": "Parameter validation accepts exactly the published tables", "statement": "validate_keygen_args / validate_sign_args / validate_verify_args hold iff the arguments are one of the rows of tables 2-4; every public API instantiation (3 levels x d in {1,2,4,8,16,32}) satisfies them and other d (non power of two, 0, >32) do not.", "quantifier": "all argument tuples (unbounded integers)", "why_tests_cant": "unbounded tuples; rows accidentally accepted are not tested", "anchors": ["include/raccoon/internals/utility/params.hpp:validate_keygen_args,validate_sign_args,validate_verify_args", "include/raccoon/raccoon128.hpp", "include/raccoon/raccoon192.hpp", "include/raccoon/raccoon256.hpp"]}
{"id": "C43", "title": "Key and signature byte lengths", "statement": "The advertised byte lengths equal the number of bytes the encoders produce for every parameter set and share count: pk = seed + 7*k*512/8, sk = pk + (d-1) seeds + 49*l*512/8, no bit is truncated by the divisions.", "quantifier": "all k,l,d and 𝜅 multiple of 8", "why_tests_cant": "all dimensions", "anchors": ["include/raccoon/internals/utility/utils.hpp:get_pkey_byte_len,get_skey_byte_len"]}
{"id": "C44", "title": "Little-endian conversion", "statement": "from_le_bytes of up to 8 bytes is their little-endian value, to_le_bytes writes the low bytes, the two are inverse on n bytes.", "quantifier": "all byte strings / words", "why_tests_cant": "2^64 words, all lengths", "anchors": ["include/raccoon/internals/utility/utils.hpp:from_le_bytes,to_le_bytes"]}
{"id": "C45", "title": "Byte array comparison", "statement": "ct_eq_byte_array returns all-ones iff the arrays are equal and zero otherwise, for every length.", "quantifier": "all lengths and contents", "why_tests_cant": "all inputs", "anchors": ["include/raccoon/internals/utility/utils.hpp:ct_eq_byte_array"]}
{"id": "C46", "title": "Power-of-two helper", "statement": "is_power_of_2 is true iff v is a power of two or v = 0 (it wrongly accepts 0, so the separate d>0 guards are needed); log2 of 2^m is m.", "quantifier": "all 64-bit v", "why_tests_cant": "single bad input", "anchors": ["include/raccoon/internals/utility/utils.hpp:is_power_of_2,log2"]}
{"id": "C47", "title": "Bit reversal and twiddle tables", "statement": "bit_rev is an involutive permutation of [0,512) reversing 9 bits; table entry i is ζ^bit_rev(i), the negated table entry is its negation.", "quantifier": "all 512 positions", "why_tests_cant": "table generated at compile time, not tested", "anchors": ["include/raccoon/internals/polynomial/poly.hpp:bit_rev,gen_powers_of_ζ,POWERS_OF_ζ,NEG_POWERS_OF_ζ"]}
{"id": "C48", "title": "PRNG reads are a partition of one stream", "statement": "The bytes obtained from any sequence of reads of the PRNG, concatenated, are a prefix of the one SHAKE128 stream of the seed: no byte is skipped or reused, whatever the read sizes.", "quantifier": "all read histories", "why_tests_cant": "unbounded histories", "anchors": ["include/raccoon/internals/rng/prng.hpp:read"]}
{"id": "C49", "title": "Equality tests of polynomials, vectors", "statement": "operator== on polynomials, masked polynomials and vectors is true iff all raw coefficients are equal.", "quantifier": "all pairs", "why_tests_cant": "early-exit or index errors only visible for single differing positions", "anchors": ["include/raccoon/internals/polynomial/poly.hpp:operator==", "include/raccoon/internals/polynomial/masked_poly.hpp:operator==", "include/raccoon/internals/polynomial/poly_vec.hpp:operator=="]}
{"id": "C50", "title": "Matrix expansion is domain separated and deterministic", "statement": "expandA fills entry (r,c) with the uniform sampler's output for 'A'||r||c||0^5||seed; distinct positions use distinct hash inputs, all entries are canonical, no access is out of range, and signer and verifier obtain the same matrix from the same seed.", "quantifier": "all seeds, dimensions, XOFs", "why_tests_cant": "every entry of every matrix; index mix-ups between rows and columns are invisible to round-trip tests as long as both sides agree", "anchors": ["include/raccoon/internals/polynomial/poly_mat.hpp:expandA"]}
{"id": "C51", "title": "Mask sampler consumes exactly one generator", "statement": "sample_polynomial for a valid generator index returns the polynomial of the first 512 words below q of that generator, advances that generator by exactly the number of words examined, leaves the other generators untouched, and returns zero for an index without a generator.", "quantifier": "all generator states, indices, share counts", "why_tests_cant": "rejection behaviour depends on the permutation's outputs", "anchors": ["include/raccoon/internals/polynomial/poly.hpp:sample_polynomial", "include/raccoon/internals/rng/mrng.hpp:get"]}
{"id": "C52", "title": "Operations terminate when the samplers do, and signing returns the first acceptable attempt", "statement": "If for the given XOFs the rejection samplers finish within a budget, then key generation, refresh, serialisation, deserialisation return, verify returns unless parsing the signature is undefined, and sign either returns the encoding of the first attempt whose signature is acceptable (norms in bounds and fits the length), or hits the undefined encoding of such an attempt, or all attempts within the budget are unacceptable; the attempts are determined by key, message and entropy. Exactly: if the samplers finish, sign returns b iff the first attempt that is not rejected is acceptable, its encoding is defined and b is that encoding; it is undefined iff the first attempt that is not rejected leads the encoder into a trap (also if that attempt would fail the norm check); it exhausts a budget iff all its attempts are rejected.", "quantifier": "all parameter sets, share counts, keys, messages, entropies, budgets", "why_tests_cant": "unbounded retry histories and all XOFs", "anchors": ["include/raccoon/internals/secret_key.hpp:sign,generate,refresh", "include/raccoon/internals/public_key.hpp:verify"]}
{"id": "C53", "title": "Responses and hints of generated keys are small integers", "statement": "For a key obtained by generate and any refreshes and reloads, in every signature returned by sign the response satisfies z = c*s + r over the integers (no wrap modulo q), |z_i| <= omega*rep*d*2^(ut-1) + rep*d*2^(uw-1), |h_i| <= 8; signing has undefined behaviour only if a single noise coefficient reaches 15*2^40-90112 in magnitude, or 8*2^40-90112 in the very last position.", "quantifier": "all parameter sets, share counts, entropies, messages, derivation histories", "why_tests_cant": "extreme noise is never sampled in a test", "anchors": ["include/raccoon/internals/secret_key.hpp:sign", "include/raccoon/internals/utility/serialization.hpp:encode_sig"]}
{"id": "C54", "title": "Sampling into an unmasked masked-polynomial object", "statement": "masked_poly_t<1>::sampleQ should store the polynomial sampled for (header, seed). In the code the result of the static sampler is discarded: the object is left unchanged for every header and seed.", "quantifier": "all objects, headers, seeds, XOFs", "why_tests_cant": "never called by the scheme, so no test observes it", "anchors": ["include/raccoon/internals/polynomial/masked_poly.hpp:sampleQ"]}
{"id": "C55", "title": "Iteration budgets do not matter", "statement": "Key generation, signing, verification, refreshing, saving, loading and all samplers have at most one outcome each, fixed by their arguments, the entropy they are given and the hash functions: if a run that may examine n words / make n attempts finishes, every run that may do more ends in the same result; two finished runs of sign with the same key object, entropy and message return the same bytes.", "quantifier": "all parameter sets, arguments, entropies, XOFs, budgets", "why_tests_cant": "retry loops are unbounded; a state carried over between attempts would only show for particular histories", "anchors": ["include/raccoon/internals/secret_key.hpp:sign,generate,refresh", "include/raccoon/internals/public_key.hpp:verify", "include/raccoon/internals/polynomial/poly.hpp:sampleQ,sample_polynomial"]}
{"id": "C56", "title": "Output distribution of the samplers", "statement": "Over uniformly random XOF output: the uniform sampler returns every canonical polynomial equally often; the challenge sampler returns every polynomial with omega coefficients +-1 equally often; the noise sampler returns every vector with coefficients in [-2^(u-1),2^(u-1)) equally often; the mask sampler returns every canonical polynomial equally often; and each of these values does occur. zq_t::random (which claims a random field element) does not: 0 is produced by 33551 eight-byte strings, q-1 by 33550.", "quantifier": "all polynomials, all numbers of words allowed, all headers and seeds", "why_tests_cant": "statistical tests cannot see a small bias, e.g. from a modulo reduction, a wrong comparison or a skipped position", "anchors": ["include/raccoon/internals/polynomial/poly.hpp:sampleQ,chal_poly,sample_polynomial", "include/raccoon/internals/polynomial/masked_poly.hpp:sampleU", "include/raccoon/internals/math/field.hpp:random"]}
{"id": "C57", "title": "Refreshing hides the secret in any d-1 shares", "statement": "The shares of a refreshed sharing are the old shares plus a fixed linear function of the masks drawn (one per request of the schedule). If the masks are uniform, the result is uniform among all sharings of the same value, and any d-1 of its shares are uniform and independent of the secret; every such outcome has the same, non-zero number of mask choices.", "quantifier": "all share counts 2^m, all sharings, all choices of the left-out share, all target values", "why_tests_cant": "a refresh that leaves some pair of shares correlated still decodes correctly", "anchors": ["include/raccoon/internals/polynomial/masked_poly.hpp:zero_encoding,refresh", "include/raccoon/internals/polynomial/poly_vec.hpp:refresh"]}
{"id": "C58", "title": "Signatures bind public key and message", "statement": "A byte string accepted as a signature under two different (public key, message) pairs exhibits a SHAKE256 collision (on 2*kappa bits) between two strings that the two verifications hash; which strings these are is spelled out.", "quantifier": "all public key byte strings, messages, signatures, XOFs", "why_tests_cant": "all pairs of keys and messages", "anchors": ["include/raccoon/internals/public_key.hpp:verify", "include/raccoon/raccoon128.hpp"]}
{"id": "C59", "title": "Signatures are not malleable without a short kernel vector", "statement": "Two different accepted signatures of equal length under one public key with the same challenge hash give a SHAKE256 collision or a short non-zero vector that the public matrix maps to a short vector; two accepted signatures with the same recomputed commitment give the special-soundness relation a(z-z') - 2^nu_t (c-c') t short.", "quantifier": "all public keys, messages, pairs of signatures, XOFs", "why_tests_cant": "all pairs of accepting signatures", "anchors": ["include/raccoon/internals/public_key.hpp:verify", "include/raccoon/internals/utility/serialization.hpp:decode_sig"]}
{"id": "C60", "title": "Hash uses are domain separated", "statement": "Matrix expansion depends on SHAKE256 only at inputs starting with 'A', the challenge polynomial only at 'c', the challenge hash only at 'h', the noise sampler only at 'u', key masking only at 'K', refreshing on no hash function at all; these bytes are pairwise different. (The two hashes of public key and message carry no such byte.)", "quantifier": "all XOFs and arguments", "why_tests_cant": "depends on every byte of every hash input", "anchors": ["include/raccoon/internals/polynomial/poly.hpp:sampleQ,chal_poly", "include/raccoon/internals/polynomial/poly_mat.hpp:expandA", "include/raccoon/internals/polynomial/masked_poly.hpp:sampleU,add_rep_noise", "include/raccoon/internals/utility/serialization.hpp:mask_compress,mask_decompress"]}
{"id": "C61", "title": "Entropy reuse in signing reveals the secret", "statement": "If sign is called twice with (copies, refreshes, reloads of) one generated key and the same entropy on two messages, attempt i of both runs uses the same ephemeral values: when both stop at the same attempt, the difference of the responses is exactly (c-c')*s over the integers. If the challenges differ, the secret is the only solution s of that equation (integer polynomials modulo x^512+1 have no zero divisors), so the two signatures give the secret away: fresh entropy per signature is indispensable.", "quantifier": "all parameter sets, keys, messages, entropies, derivation histories", "why_tests_cant": "a consequence over pairs of executions", "anchors": ["include/raccoon/internals/secret_key.hpp:sign", "include/raccoon/internals/rng/prng.hpp:prng_t"]}
{"id": "C62", "title": "Observing a refresh: strong non-interference", "statement": "While a sharing with d = 2^m shares is refreshed, an observer who sees any set of values (shares, masks, shares of the encoding of zero at any moment) plus all refreshed shares learns nothing beyond the shared value and as many input shares as it saw values; seeing fewer than d values and refreshed shares together, it learns only as many input shares as it saw values that are not refreshed shares.", "quantifier": "all share counts 2^m, all sets of observed places, all sharings, all observations", "why_tests_cant": "side-channel leakage is invisible to functional tests; all subsets of intermediate values", "anchors": ["include/raccoon/internals/polynomial/masked_poly.hpp:zero_encoding,refresh"]}
{"id": "C63", "title": "Observing the signing response", "statement": "In the part of sign from refreshing the secret to adding up the response shares, an observer of fewer than d values (in all rows together), shown all final shares of the response on top, learns nothing but the response: for any two pairs (secret, ephemeral) with the same response, every observation is equally likely over the choice of sharings and masks.", "quantifier": "all share counts 2^m, all sets of fewer than d observed places, all secrets, ephemerals and challenges", "why_tests_cant": "as above", "anchors": ["include/raccoon/internals/secret_key.hpp:sign", "include/raccoon/internals/polynomial/poly_vec.hpp:refresh"]}
{"id": "C64", "title": "Observing the addition of noise", "statement": "While add_rep_noise runs, an observer of fewer than d values, shown all final shares on top, learns nothing but the result and at most as many noise terms (and shares of the argument) as it saw values.", "quantifier": "all share counts 2^m, all repetition counts, all sets of fewer than d observed places, all noise vectors", "why_tests_cant": "as above; forgetting the refresh in one repetition still decodes correctly", "anchors": ["include/raccoon/internals/polynomial/masked_poly.hpp:add_rep_noise"]}
{"id": "C65", "title": "Observing the whole life of a key", "statement": "An observer watches key generation and any sequence of calls of sign (all attempts) and refresh, picking places anywhere (shares, masks, noise terms, products with the matrix and with the challenge), and is shown all final shares of public key, commitments and responses on top. If for every sharing of the secret it picks fewer than d places (counting the phase that made the sharing and the refreshes that start from it), it learns nothing but the public results and, in every phase, no more noise terms than it picked places there: two choices of noise agreeing on these terms and with the same public results give every observation equally often. The same holds for an observer that sees anything computed from these values (single coefficients or bits, what is held inside a transform or a product with something public). If the caller refreshes the key before every signature, less than d/3 places per phase are allowed for ever. Without that, the bound is needed: sign does not store the refreshed sharing, all calls start from the same one, and one observed share per call reveals the secret after d calls.", "quantifier": "all share counts 2^m, dimensions, repetition counts, histories of calls, sets of places, matrices, noise", "why_tests_cant": "unbounded histories and all sets of intermediate values; leakage is invisible to functional tests", "anchors": ["include/raccoon/internals/secret_key.hpp:generate,sign,refresh", "include/raccoon/internals/polynomial/masked_poly.hpp:zero_encoding,refresh,add_rep_noise", "include/raccoon/internals/polynomial/poly_vec.hpp:refresh", "include/raccoon/internals/polynomial/poly_mat.hpp:operator*"]}
{"id": "C66", "title": "Control flow and addresses reveal no secrets", "statement": "An observer of the outcome of every branch and loop condition, the index of every array access and the length of every buffer learns nothing about: the entropy (hence the secret) in key generation; the key in refresh; the secret when a key is saved (with given entropy) or loaded (with given mask seeds); the operands of comparisons of polynomials, vectors and byte strings. In sign it learns at most the signatures (hash, hint, response) of the attempts: runs with the same attempts show the same, nothing beyond the released signature shows of the last one, and how the secret is shared does not show at all. What does show: inverting a field element shows whether it is zero, and the encoder, which also runs on attempts later rejected by the norm check, shows the signs of all coefficients: two runs of sign that show the same made the same number of attempts, and attempt by attempt agree in which challenge coefficients are zero, in whether the encoding fitted and, where it did, in the signs of all coefficients of hint and response. And the list of observations is complete: for every arithmetic operation, for refresh, key generation, saving, loading and signing it is, branch by branch and index by index, the list that the loops, conditions and subscripts of the code give (for each rejection sampler up to which draws were rejected; for sign given the attempts).", "quantifier": "all pairs of secrets, keys, entropies, messages of equal length, share counts, XOFs, budgets", "why_tests_cant": "timing and cache behaviour is invisible to functional tests, and constant-time claims compare all pairs of secrets", "anchors": ["include/raccoon/internals/secret_key.hpp:generate,sign,refresh,to_bytes,from_bytes", "include/raccoon/internals/polynomial/poly.hpp:operator==,center,ntt,sampleQ", "include/raccoon/internals/math/field.hpp:reduce_once,barrett_reduce,inv", "include/raccoon/internals/utility/serialization.hpp:mask_compress,mask_decompress,encode_sig", "include/raccoon/internals/utility/utils.hpp:ct_eq_byte_array"]}
{"id": "C67", "title": "Acceptance hangs on one hash value", "statement": "For a signature string that parses to a hash c, a hint and a response within the bounds (response coefficients also below 15*2^40, the parser's window), verification under a given public key and message depends on the hash function, apart from values that are fixed beforehand, through one value only: there is one string x, hashed last, such that under every hash function that agrees with the given one off x, verify accepts if and only if the hash of x is c. Hence (simulation) whoever may choose that one value needs no secret key: any c, hint and response within the bounds is then accepted; and (forking) two signatures accepted under two hash functions that differ at their common last string only give a short relation a(z-z') - 2^nu_t (c-c') t.", "quantifier": "all three parameter sets, hash functions, public key bytes, messages (of other length than 8+512k for the first two), signature strings", "why_tests_cant": "quantifies over all hash functions and all their one-point changes", "anchors": ["include/raccoon/internals/public_key.hpp: verify", "include/raccoon/internals/polynomial/challenge.hpp: chal_hash", "include/raccoon/internals/polynomial/poly.hpp: chal_poly", "include/raccoon/internals/polynomial/poly_mat.hpp: expandA"]}
{"id": "C68", "title": "Refreshing hides, counted over the generator's words", "statement": "Over uniformly random 64-bit words of the mask generators (every table of words for the d-1 generators counted once): zero_encoding of a vector returns every vector of sharings of zero equally often; refresh returns every sharing of the same values equally often; and all shares but an arbitrary one per row take any values with a frequency that depends neither on the values nor on what is shared. More generally every list of masks is delivered for the same number of tables, whatever the order in which the generators are asked.", "quantifier": "all share counts 2^m, numbers of rows, sharings, left-out shares, target values, word budgets, families of generators producing the words", "why_tests_cant": "rejection sampling from interleaved generators could correlate masks or bias them; no test sees joint distributions of d-1 shares", "anchors": ["include/raccoon/internals/polynomial/masked_poly.hpp:zero_encoding,refresh", "include/raccoon/internals/polynomial/poly_vec.hpp:zero_encoding,refresh", "include/raccoon/internals/polynomial/poly.hpp:sample_polynomial", "include/raccoon/internals/rng/mrng.hpp:get"]}
{"id": "C69", "title": "What a key file means", "statement": "Any byte string of the right length is a secret key file: loading, refreshing and saving the key (in any order) is always defined; the public key is that of the first bytes and the secret is the stored 49-bit fields modulo q. Nothing else in the file matters: two files with the same public part and fields congruent modulo q - whatever their seeds and the histories of the loaded objects - sign to the same bytes (or are undefined alike); signing is that of the well-formed key with the reduced secret; whenever it returns, the public key in the file accepts; saving gives the same public bytes and the same secret. Nothing is validated: for files whose first secret row is a constant field between 96*2^40 and q-96*2^40 every call of sign is undefined behaviour.", "quantifier": "all byte strings of the right length, histories of refresh/save/load, entropies, messages, buffers, budgets, XOFs", "why_tests_cant": "all 2^(8*len) files and all histories; malformed files are exactly what tests built from the library's own output never contain", "anchors": ["include/raccoon/internals/secret_key.hpp:from_bytes,to_bytes,refresh,sign", "include/raccoon/internals/utility/serialization.hpp:mask_decompress,mask_compress", "include/raccoon/internals/math/field.hpp:operator+,operator*"]}
{"id": "C70", "title": "The test helper flips exactly one bit, but not every bit", "statement": "random_bitflip inverts exactly one bit of non-empty data (bit u mod 8 of byte u mod length, u the next eight random bytes) and leaves empty data and the generator alone. Because both indices come from the same word, a bit can be hit if and only if its index agrees with its byte's index modulo gcd(length, 8): in public keys an eighth of the bits, in signatures an eighth (Raccoon-192), a quarter (Raccoon-128) or half (Raccoon-256) of them are ever tested.", "quantifier": "all data, generator states, hash functions, positions", "why_tests_cant": "running the tests more often never shows what they cannot reach", "anchors": ["tests/test_helper.hpp:random_bitflip"]}
{"id": "C71", "title": "The repository's arithmetic, gadget and serialization tests pass on every run", "statement": "For every entropy, every generator function and any number of iterations, the field test, the 128-bit test (two-limb build), the gadget test (whenever the mask sampler finishes), the public-key test, the unmasked-secret test and the zero-signature test return and all their assertions hold. The exception: built with __int128 the 128-bit test is undefined on every run, since its first iteration rotates by 0. And the gadget test is blind to the vector zero_encoding: it discards the returned vector, so it passes with any function in its place.", "quantifier": "all entropies, generator functions, numbers of iterations, share counts and dimensions", "why_tests_cant": "the tests are randomised: a passing run says nothing about the next one", "anchors": ["tests/test_field.cpp", "tests/test_u128.cpp", "tests/test_gadgets.cpp", "tests/test_serialization.cpp"]}
{"id": "C72", "title": "The signing tests and the example fail only through a cryptographic break", "statement": "Whenever a signing test comes to its end it ran one round for each message length, in every round the signature made was accepted under the decoded public key, and a spoilt message, signature or public key is accepted only if a hash collision, a near-collision (one bit apart) or a short vector in the kernel of the public matrix is exhibited. The test is undefined only if a call of sign is or if a flipped bit leads the signature decoder into a trap; the latter does exist, within reach of the helper. The example's final assertion holds whenever it is reached.", "quantifier": "all parameter sets, share counts, message lengths, entropies, hash functions", "why_tests_cant": "the tests' own outcome quantifies over all random choices and all hash functions", "anchors": ["tests/test_raccoon128_signing.cpp", "tests/test_raccoon192_signing.cpp", "tests/test_raccoon256_signing.cpp", "examples/raccoon256.cpp"]}
{"id": "C73", "title": "Signing is undefined only for extreme noise, and that is rare", "statement": "With a generated key (refreshed or reloaded any number of times) and a buffer with room for the hash, sign is undefined only if in some attempt the noise words that make up a response coefficient, read as two's complement numbers, add up to 15*2^40 or more, or those of the very last coefficient to 8*2^40 or more (in absolute value, up to 90112). Of all families of words only a fraction of 2^-60 (8 and 16 shares: 2^-100; up to 4 shares: none) reaches 15*2^40, and a fraction of 2^-15 (8 and 16 shares: 2^-16; up to 4 shares: 2^-195, all eight words within 90112 of the same extreme) reaches 8*2^40. Conversely a sum of 22*2^40+90112 or more in the first coefficient of the first attempt makes every call undefined, and undefined runs exist with 32 shares as well as with one.", "quantifier": "all parameter sets, share counts, hash functions, keys and their histories, entropies, messages, buffers, numbers of attempts; all families of noise words", "why_tests_cant": "an event of probability 2^-60 is met by no test, and an impossibility needs all words", "anchors": ["include/raccoon/internals/secret_key.hpp:sign", "include/raccoon/internals/utility/serialization.hpp:encode_sig", "include/raccoon/internals/polynomial/poly.hpp:sampleU"]}
{"id": "C74", "title": "A response says little about the secret", "statement": "In every attempt of sign with a generated key the response is, as integers, the product of secret and challenge plus the sum of the attempt's noise words, the challenge has exactly omega coefficients +-1 and the secret's coefficients are at most rep*d*2^(ut-1). Take any two secrets of that size, challenges of weight omega for N responses, and any set T of N-tuples of responses: over all tables of noise words the frequencies with which the responses fall into T differ by at most 2*N*l*512*omega*rep*d*2^(ut-1)/2^uw, that is N*2^-16, N*2^-14, N*2^-12 for Raccoon-128 with up to 4, up to 16, 32 shares and N*2^-14, N*2^-12, N*2^-10 for the other sets (challenges taken as given).", "quantifier": "all parameter sets, share counts, pairs of secrets of the size keys have, challenges, numbers of responses, sets of responses", "why_tests_cant": "a statement about all tables of noise words and all events; no statistical test bounds a distance over all events", "anchors": ["include/raccoon/internals/secret_key.hpp:sign", "include/raccoon/internals/polynomial/poly.hpp:sampleU", "include/raccoon/internals/polynomial/masked_poly.hpp:add_rep_noise"]}
{"id": "C75", "title": "Signing attempts can be simulated without the secret", "statement": "For any number N of signing attempts with a generated key, commitment, hash value, hint and response come from the attempts' noise words as the scheme says. Over all tables of noise words, the transcripts (commitment, hash value, response; the hint is a function of them) of N attempts with given hash values fall into any set as often as those of a simulator that draws the response as noise and computes the commitment from it, the hash value and a*s+e, without knowing s; the frequencies differ by at most N*2^-16, N*2^-14, N*2^-12 for Raccoon-128 with up to 4, up to 16, 32 shares and N*2^-14, N*2^-12, N*2^-10 for the other sets. The same holds if the hash values are the answers of an oracle on (message digest, commitment) with different digests, counted over all tables and all oracles, against simulation with all tuples of hash values.", "quantifier": "all parameter sets, share counts, matrices, secrets and errors of the size keys have, hash values, numbers of attempts, sets of transcripts, oracles", "why_tests_cant": "zero knowledge is a statement about all events over all noise and all hash functions; a test sees single transcripts", "anchors": ["include/raccoon/internals/secret_key.hpp:generate,sign", "include/raccoon/internals/polynomial/poly.hpp:sampleU", "include/raccoon/internals/polynomial/masked_poly.hpp:add_rep_noise", "include/raccoon/internals/polynomial/challenge.hpp: chal_hash"]}
{"id": "C76", "title": "Why a signing attempt is given up", "statement": "With a generated key, the bound on the largest coefficient of the response never rejects an attempt. An attempt is given up for one of three reasons only: its encoding is longer than the signature buffer, a hint coefficient exceeds 2 in absolute value, or 2^24 times the sum of the squared hints plus the sum of the squared (shifted) responses exceeds the bound B22. With at most four shares the response alone never exceeds B22: every attempt whose encoding fits, with hints up to 2 and squared hints summing up to at most 361, 848, 1395 (Raccoon-128, -192, -256) is released, and sign does not go past it.", "quantifier": "all three parameter sets, share counts, keys, messages, entropies, attempts, XOFs", "why_tests_cant": "rejections depend on rare values of noise and hash; which causes are impossible is a statement about all of them", "anchors": ["include/raccoon/internals/secret_key.hpp:sign", "include/raccoon/internals/signature.hpp:check_bounds", "include/raccoon/internals/utility/serialization.hpp:encode_sig"]}
{"id": "C77", "title": "All masks come from one public table, and refreshing does not stop a slow observer", "statement": "There is one table of sharings of zero, the same for all keys, parameter sets, messages and entropies (it depends on the number of shares only), from which every mask is taken: each call of refresh adds the same rows to the stored shares, attempt n of any call of sign adds fixed sums of rows to them, and the shares of a generated key are their own short noise plus fixed rows. So an observer that sees every share once, at any different times - before or after any number of refreshes, in the key object or in any attempt of any call of sign - gets the secret by subtracting public values and adding up. For a key loaded from bytes share 0 alone is enough; every single share of a generated key is, up to a public value, a polynomial with coefficients of at most rep*2^(ut-1).", "quantifier": "all parameter sets, share counts, hash functions, keys (generated or loaded from any bytes), numbers of refreshes, calls and attempts of sign, times at which the shares are seen", "why_tests_cant": "a statement about all histories and observers; a test that compares two runs sees different shares and passes", "anchors": ["include/raccoon/internals/secret_key.hpp:generate,sign,refresh", "include/raccoon/internals/rng/mrng.hpp:mrng_t", "include/raccoon/internals/polynomial/masked_poly.hpp:refresh,zero_encoding,add_rep_noise"]}
{"id": "C78", "title": "Masking does not show in the outputs", "statement": "Two libraries that differ only in their mask generators - the states these start in and the Ascon permutation behind them - cannot be told apart by known answers: from the same seed and entropy they generate the same public key (as an object and as bytes) and the same secret, differing only in the shares; and after any histories of refreshes and trips through bytes of each key they sign a message with the same entropy to the same bytes (or are undefined alike), whenever both calls come to an end. Verification, saving and loading do not use the generators at all. In particular the library as it is, whose constructor drops the states it computes, and the one its author intended agree on every public key and signature.", "quantifier": "all parameter sets, share counts, initial generator states, Ascon permutations, SHAKE functions, seeds, entropies, histories, messages, buffers, budgets", "why_tests_cant": "no finite set of known answers covers all inputs; and the theorem says that no such set could ever have caught the generator bug", "anchors": ["include/raccoon/internals/secret_key.hpp:generate,refresh,sign", "include/raccoon/internals/rng/mrng.hpp:mrng_t,get", "include/raccoon/internals/polynomial/masked_poly.hpp:zero_encoding,refresh,add_rep_noise"]}
{"id": "C79", "title": "One seed, one stream: calls are kept apart by their entropy only", "statement": "The default-constructed generator is the one seeded with the 32 bytes of the first eight words of the random device, least significant byte first; different words give different seeds and no later word matters. generate and sign read their noise from the start of their generator's stream with the same labels: if both run on the same seed (a device that repeats itself, as std::random_device may), coefficient x of the first attempt's ephemeral mask and error agrees modulo 2^ut with coefficient b*x of the secret and of the key's error (b = 5 or 6 bytes per signing coefficient). So a signature released at the first attempt satisfies z_j[x] = (c*s_j)[x] + s_j[b*x] modulo 2^ut for all x with b*x < 512, although the key and the signature come from different calls.", "quantifier": "all parameter sets, share counts, XOFs, device words, seeds, messages, histories of the key, buffers, budgets", "why_tests_cant": "a repeated seed does not occur in tests, and the congruences are about all coefficients and all XOFs", "anchors": ["include/raccoon/internals/rng/prng.hpp:prng_t", "include/raccoon/internals/secret_key.hpp:generate,sign", "include/raccoon/internals/polynomial/masked_poly.hpp:add_rep_noise", "include/raccoon/internals/polynomial/poly.hpp:sampleU"]}
{"id": "C80", "title": "Which operations on sharings are operations on the shared values", "statement": "The operators of masked polynomials work share by share. Addition, subtraction and shifts to the left by at most 15 bits add, subtract and multiply the shared values (the sums of the shares). The product of two sharings is the share-wise product: its value is the product of the values if and only if the mixed products of shares cancel - always with one share; with two or more shares the value of the product is not a function of the values of the factors at all, though the comment says it multiplies masked polynomials. The same holds for rounding shifts to the right, shifts to the left by 16 to 63 bits, and addition modulo a small modulus; and == compares sharings, not values.", "quantifier": "all share counts, sharings, shifts, small moduli; non-existence over all functions of the values", "why_tests_cant": "negative statements quantify over all functions, positive ones over all sharings; the library only calls the non-linear ones with one share, so its tests cannot show it", "anchors": ["include/raccoon/internals/polynomial/masked_poly.hpp:operator+,operator-,operator*,operator<<,operator==,rounding_shr,add_mod"]}
{"id": "C81", "title": "The benchmarks do the work they name", "statement": "The key generation benchmark is never undefined; each round makes a new key from that round's entropy, all with the same matrix seed, and writes a file of the right length from which this key is read back. Each round of the signing benchmark makes a signature of the 32-byte message from that round's entropy which the benchmark's public key accepts. The verification benchmark measures accepting calls only: after any number of rounds all of them have accepted (the program itself never looks at the result). The last two are undefined only if a call of sign is.", "quantifier": "all parameter sets, share counts, entropies of every round, numbers of rounds, XOFs", "why_tests_cant": "the number of rounds is chosen by the benchmark library and the entropy by the machine; the benchmarks check nothing", "anchors": ["benchmarks/raccoon128.cpp", "benchmarks/raccoon192.cpp", "benchmarks/raccoon256.cpp"]}
{"id": "C82", "title": "Simulation survives adaptively chosen messages and hash queries", "statement": "An attacker asks, step by step and each time knowing all answers so far, for signing attempts on messages of its choice or for values of the challenge hash at points of its choice. What it is shown in games in which no pair (digest, commitment) is hashed twice - over all tables of noise words and all oracles in place of the hash - falls into any set as often as what a simulator shows it that knows the public a*s+e but not the secret, up to 2^-16, 2^-14, 2^-12 per signing attempt for Raccoon-128 with up to 4, up to 16, 32 shares and 2^-14, 2^-12, 2^-10 for the other sets; hash queries cost nothing. So an attacker forges against the signer no more often than against the simulator, up to the same distance, and exchanges with the code are such games: the attempts of sign with a generated key are the signing steps, the challenge hash is the oracle, and valid signatures whose hash was asked for are forgeries.", "quantifier": "all parameter sets, share counts, attackers (schedules, choices of messages and hash queries, ways to compute the forgery), matrices, secrets and errors of the size keys have, numbers of steps, sets of transcripts, oracles", "why_tests_cant": "security claims quantify over all attackers and count over all noise and all hash functions", "anchors": ["include/raccoon/internals/secret_key.hpp:generate,sign", "include/raccoon/internals/secret_key.hpp:verify", "include/raccoon/internals/polynomial/poly.hpp:sampleU", "include/raccoon/internals/polynomial/masked_poly.hpp:add_rep_noise", "include/raccoon/internals/polynomial/challenge.hpp: chal_hash"]}
{"id": "C83", "title": "Forgeries give short relations", "statement": "Two answers (hint, response) within the norm bounds to different challenges for one commitment give, by subtraction, a short relation between public matrix and public vector: a*delta - 2^nu_t*gamma*t is short, delta is short and gamma, with coefficients up to 2, is not zero. There are binom(512, omega)*2^omega challenge polynomials, at least 2^kappa for each parameter set, and for a XOF with uniform output each is returned by at most that fraction of the byte strings with which the sampler ends. Take any attacker that chooses messages and hash queries as it goes, Q hash queries in all, and forges against the signer on a fraction eps of all noise tables and oracles (no pair hashed twice); let no challenge polynomial have more than one B-th of the hash values, and delta be eps less 2^-16 to 2^-10 per signing attempt as in C82. Then, without the secret: of all noise tables and pairs of tuples of hash values at least delta*(delta/Q - 1/B) are such that what the attacker outputs in the simulated game, and in its repetition with new hash values from one of its hash queries on, is a short relation.", "quantifier": "all parameter sets, share counts, attackers, numbers of steps, matrices, public vectors, secrets and errors of the size keys have, maps from hash values to challenges", "why_tests_cant": "the forking argument counts over all noise, all hash values and all attackers", "anchors": ["include/raccoon/internals/secret_key.hpp:sign", "include/raccoon/internals/public_key.hpp:verify", "include/raccoon/internals/polynomial/poly.hpp:sampleU,chal_poly", "include/raccoon/internals/polynomial/challenge.hpp:chal_hash"]}
{"id": "C84", "title": "Commitments cannot be predicted", "statement": "For all but at most one 2^1022-th of all public matrices, no (rounded) commitment is made from more than one 2^512-th of the noise of a signing attempt. So, for such a matrix and an attacker that does not ask for hash values it has seen, the games of C82 and C83 in which a signing attempt hits a pair (digest, commitment) that was hashed before make up at most N*M*2^-512 of all noise tables and oracles (N signing attempts in M steps), and C83 holds without that restriction: an attacker that forges against the signer on a fraction eps of all noise tables and oracles yields, without the secret, short relations on at least delta*(delta/Q - 1/B) of all noise tables and pairs of tuples of hash values, delta being eps less N*(2^-16 to 2^-10 + M*2^-512).", "quantifier": "all parameter sets, share counts, public matrices (counted), commitments, attackers, numbers of steps, secrets and errors of the size keys have", "why_tests_cant": "min-entropy of the commitment is a statement about all noise and all matrices; a test never sees a repeated commitment", "anchors": ["include/raccoon/internals/secret_key.hpp:sign", "include/raccoon/internals/polynomial/poly.hpp:sampleU,ntt,rounding_shr", "include/raccoon/internals/polynomial/masked_poly.hpp:add_rep_noise", "include/raccoon/internals/polynomial/poly_mat.hpp: operator*"]}
{"id": "C85", "title": "Public matrices are uniform", "statement": "If SHAKE256 answers the queries for the entries of the matrix of a seed by independent uniform bytes (and whatever it likes elsewhere, and the sampler reads at most m words for each entry), matrix expansion ends with every matrix over the ring equally often, and with each as soon as 512 words are allowed. So every property of matrices holds as often for expanded matrices as for matrices; in particular commitments cannot be predicted for all but one 2^1022-th of the byte streams for which expansion ends.", "quantifier": "all seeds, dimensions up to 256, budgets, matrices, sets of matrices, byte strings of the extendable-output function (counted)", "why_tests_cant": "a statement about the distribution over all outputs of the XOF; a biased, shared or swapped entry stream gives matrices that pass every functional test", "anchors": ["include/raccoon/internals/polynomial/poly.hpp:sampleQ", "include/raccoon/internals/polynomial/poly_mat.hpp: expandA"]}
{"id": "C86", "title": "Public keys cannot be predicted", "statement": "For all but one 2^206-th of the public matrices (also counted over the answers of an ideal extendable-output function for the matrix of a seed), no public vector t = round(a s + e) is made from more than one 2^128-th of the noise of a key generation, so two key generations with the same matrix give the same public key for at most one 2^128-th of all pairs of noise. Keys with different seeds differ anyway. The public bytes of a generated key are the seed and the vector made from the noise words read from the entropy's stream.", "quantifier": "all parameter sets, share counts, public matrices and noise words (counted), seeds, entropies, byte streams", "why_tests_cant": "a statement about all noise and all matrices; a test never generates the same key twice even if only a few bits of the entropy matter", "anchors": ["include/raccoon/internals/secret_key.hpp:generate", "include/raccoon/internals/polynomial/poly.hpp:sampleU,ntt,rounding_shr", "include/raccoon/internals/polynomial/masked_poly.hpp:add_rep_noise", "include/raccoon/internals/polynomial/poly_mat.hpp: operator*, expandA"]}
{"id": "C87", "title": "Forging means finding short relations, whatever the attacker asks", "statement": "The game is the usual one for unforgeability: an attacker has signing attempts made on messages of its choice, asks for values of the challenge hash - also again, also at points it has seen in signatures - and at last hands in a signature, for whose hash value it need not have asked. If the signature is valid, and its pair of digest and commitment is not one a signing attempt had (in particular if it never had the digest signed), on a fraction eps of all noise tables and oracles, then another attacker, explicitly made from it, that keeps a log of the hash values it knows and asks for that of the forgery in the end, sees the same game, never asks twice, and yields without the secret short relations on at least delta*(delta/(Q+1) - 1/B) of all noise tables and pairs of tuples of hash values, delta being eps less N*(2^-16 to 2^-10 + (M+1)*2^-512) for N signing attempts and Q hash queries in M steps. Signatures that verify accepts for a message with a new digest win in this sense, with the challenge hash of the code as oracle. The attacker may also decide as it goes whether its next step is a signing attempt or a hash query, up to N attempts in M steps: then Q is at most (N+1)M+1, and N(M+1)+M+1 takes the place of M+1.", "quantifier": "all parameter sets, share counts, attackers without any condition on their hash queries, unpredictable public matrices (C84: nearly all), public vectors, secrets and errors of the size keys have, numbers of steps below 2^512", "why_tests_cant": "unforgeability is a statement about all attackers", "anchors": ["include/raccoon/internals/secret_key.hpp:sign", "include/raccoon/internals/public_key.hpp:verify", "include/raccoon/internals/polynomial/poly.hpp:sampleU,chal_poly", "include/raccoon/internals/polynomial/challenge.hpp:chal_hash"]}
{"id": "C88", "title": "Breaking the interface is winning the game", "statement": "An attacker has signatures made by sign, under a generated key that may be refreshed, stored and loaded in between, on messages of its choice, has the challenge hash computed on pairs of its choice, each asked for after seeing the answers (bytes) so far, and in the end hands in a message and signature bytes. From it an attacker of the game of C87 can be made that knows the public key only: it asks for one attempt after the other until there is a signature to show and decodes what is handed in. In the game with the noise words of the code's attempts and the challenge hash as oracle it hears exactly the answers of the code; and if verify accepts what is handed in, and no message signed has the same digest, then the game is won. So with random noise and a random oracle the bound of C87 holds for every attacker of the interface; the challenges the code samples have the form the bound needs.", "quantifier": "all parameter sets, share counts, keys, attackers, numbers of calls, entropies, buffers of the same length, sampler behaviours", "why_tests_cant": "the exchange is an arbitrary history of calls chosen by the attacker", "anchors": ["include/raccoon/internals/secret_key.hpp:sign,generate,refresh,as_bytes,from_bytes", "include/raccoon/internals/public_key.hpp:verify", "include/raccoon/internals/polynomial/poly.hpp:sampleU,chal_poly", "include/raccoon/internals/polynomial/challenge.hpp:chal_hash"]}
{"id": "C89", "title": "A second signature of a signed message is a short vector", "statement": "Strong unforgeability: in the game of C87 (attacker decides as it goes between signing attempts and hash queries) let the attacker also win with a valid signature for a digest it had signed, if commitment, hash value and response together are not those of a signing attempt for that digest. On all but the fraction of noise tables and oracles on which it wins as in C87 (a pair of digest and commitment that no attempt had), and up to 2^-16 to 2^-10 + (N(M+1)+M) 2^-512 for each of the N attempts, its careful version, played against a simulator that does not know the secret, shows then a non-zero vector with coefficients at most Binf + rep*d*2^(uw-1) whose image under the public matrix has coefficients at most 2^46 + rep*d*2^(uw-1) + omega*(2^41 + q - 125*2^42): the difference of the response handed in and one of the simulator's. Attackers of the interface are covered: if in an exchange as in C88 the attacker hands in a message and a signature of the usual length that verify accepts and that is not the one returned to it for this message (or one with the same digest), then the game made from it is won in this sense.", "quantifier": "all parameter sets, share counts, attackers, unpredictable public matrices (C84: nearly all), secrets and errors of the size keys have, numbers of attempts and steps", "why_tests_cant": "a statement about all attackers, noise and oracles", "anchors": ["include/raccoon/internals/secret_key.hpp:sign", "include/raccoon/internals/public_key.hpp:verify", "include/raccoon/internals/polynomial/poly.hpp:sampleU,chal_poly", "include/raccoon/internals/polynomial/challenge.hpp:chal_hash"]}
{"id": "C90", "title": "What an attacker of the interface gains", "statement": "The bounds of C83 to C89 put together. Let the noise words be drawn at random and the challenge hash be a random oracle, and let an attacker of the interface (as in C88) have at most N signing attempts made in M steps and hand in a valid signature that is not one it was given, on a fraction eps of all noise tables and oracles. Two ways to use the attacker without the secret are given explicitly: playing against the simulator twice, with new hash values from some query on, which finds short relations for the public key on a fraction p1; and playing once, which shows a short vector with short image on a fraction p2. Then eps <= p2 + sqrt(Q p1) + Q/K + N (2 * 2^-floodBits + (2N(M+1)+2M+1) 2^-512) with Q = (N+1)M+1, where no challenge belongs to more than one in K hash values and 2^-floodBits is 2^-16 to 2^-10 as in C82. Generated keys have the small secrets and errors and the public vector the bound asks for.", "quantifier": "all parameter sets, share counts, keys, attackers of the interface, unpredictable public matrices (C84: nearly all), numbers of attempts and steps", "why_tests_cant": "a security bound is a statement about all attackers, noise and oracles", "anchors": ["include/raccoon/internals/secret_key.hpp:sign,generate", "include/raccoon/internals/public_key.hpp:verify", "include/raccoon/internals/polynomial/poly.hpp:sampleU,chal_poly", "include/raccoon/internals/polynomial/challenge.hpp:chal_hash"]}
{"id": "C91", "title": "A response changes the odds between two secrets by a factor of two at most", "statement": "Take any two secrets with coefficients of the size keys have, challenges with omega coefficients +-1 for N responses, and any set T of N-tuples of responses. Over all tables of noise words, the number with which the responses fall into T under the first secret is at most 2^N times the number under the second, plus a part of all tables that is at most N*2^-90, N*2^-268, N*2^-596 for Raccoon-128 with up to 4, up to 16, 32 shares and N*2^-73, N*2^-202, N*2^-336 for the other sets. More generally, for any D, the factor is ((D+rep*d)/D)^(N*l*512*c) and the part N*l*512*2*((D+c)/2^uw)^(rep*d) with c = 2*omega*rep*d*2^(ut-1). Unlike the additive distance 2^-16 to 2^-10 of C74 this bounds rare events, too: what is unlikely with one secret is not made likely by another (challenges taken as given).", "quantifier": "all parameter sets, share counts, pairs of secrets of the size keys have, challenges, numbers of responses, sets of responses, D", "why_tests_cant": "a statement about all tables of noise words and all, also very rare, events", "anchors": ["include/raccoon/internals/secret_key.hpp:sign", "include/raccoon/internals/polynomial/poly.hpp:sampleU", "include/raccoon/internals/polynomial/masked_poly.hpp:add_rep_noise"]}
{"id": "C92", "title": "Few signatures", "statement": "As for C90, but for attackers with few signing attempts and for rare events. In the game of C84 (hash values of a random oracle, no query repeated), any event has at most 2^N times the probability (fraction of noise tables and oracles) it has in the game against the simulator, which does not know the secret, plus N*(2^-f + M*2^-512) for N signing attempts in M steps; f = 87, 261, 573 for Raccoon-128 with up to 4, up to 16, 32 shares and 70, 193, 301 for the other sets. So an attacker of the interface (as in C88) with at most N attempts in M steps hands in a valid signature it was not given on a fraction of at most 2^N*(p2 + sqrt(Q p1) + Q/K) + N*(2*2^-f + (2N(M+1)+2M+1) 2^-512), with p1, p2, Q, K as in C90. The noise alone, which in C90 costs 2^-16 to 2^-10 for each attempt, costs a factor two for each.", "quantifier": "all parameter sets, share counts, attackers of the game and of the interface, events, unpredictable public matrices (C84: nearly all), secrets and errors of the size keys have, numbers of attempts and steps", "why_tests_cant": "a security bound is a statement about all attackers, noise and oracles", "anchors": ["include/raccoon/internals/secret_key.hpp:sign,generate", "include/raccoon/internals/public_key.hpp:verify", "include/raccoon/internals/polynomial/poly.hpp:sampleU,chal_poly", "include/raccoon/internals/polynomial/challenge.hpp:chal_hash", "include/raccoon/internals/polynomial/masked_poly.hpp:add_rep_noise"]}
