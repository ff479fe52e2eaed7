import Verif.Model.WireOut

/-!
# Model: the texts of the documentation

The tables were transcribed from go_algorand.go by a script; all of them are ASCII.
-/

namespace Teal.Docs
open Teal

set_option maxRecDepth 30000 in
/-- `opDocByName` (go_algorand.go:50-241), the short description of each opcode. -/
def opDocByName : GoMap Bytes := [
  (b!"err", b!"Fail immediately."),
  (b!"sha256", b!"SHA256 hash of value A, yields [32]byte"),
  (b!"keccak256", b!"Keccak256 hash of value A, yields [32]byte"),
  (b!"sha512_256", b!"SHA512_256 hash of value A, yields [32]byte"),
  (b!"sha3_256", b!"SHA3_256 hash of value A, yields [32]byte"),
  (b!"ed25519verify", b!"for (data A, signature B, pubkey C) verify the signature of (\"ProgData\" || program_hash || data) aga" ++ b!"inst the pubkey => {0 or 1}"),
  (b!"ed25519verify_bare", b!"for (data A, signature B, pubkey C) verify the signature of the data against the pubkey => {0 or 1}"),
  (b!"ecdsa_verify", b!"for (data A, signature B, C and pubkey D, E) verify the signature of the data against the pubkey => " ++ b!"{0 or 1}"),
  (b!"ecdsa_pk_decompress", b!"decompress pubkey A into components X, Y"),
  (b!"ecdsa_pk_recover", b!"for (data A, recovery id B, signature C, D) recover a public key"),
  (b!"bn256_add", b!"for (curve points A and B) return the curve point A + B"),
  (b!"bn256_scalar_mul", b!"for (curve point A, scalar K) return the curve point KA"),
  (b!"bn256_pairing", b!"for (points in G1 group G1s, points in G2 group G2s), return whether they are paired => {0 or 1}"),
  (b!"+", b!"A plus B. Fail on overflow."),
  (b!"-", b!"A minus B. Fail if B > A."),
  (b!"/", b!"A divided by B (truncated division). Fail if B == 0."),
  (b!"*", b!"A times B. Fail on overflow."),
  (b!"<", b!"A less than B => {0 or 1}"),
  (b!">", b!"A greater than B => {0 or 1}"),
  (b!"<=", b!"A less than or equal to B => {0 or 1}"),
  (b!">=", b!"A greater than or equal to B => {0 or 1}"),
  (b!"&&", b!"A is not zero and B is not zero => {0 or 1}"),
  (b!"||", b!"A is not zero or B is not zero => {0 or 1}"),
  (b!"==", b!"A is equal to B => {0 or 1}"),
  (b!"!=", b!"A is not equal to B => {0 or 1}"),
  (b!"!", b!"A == 0 yields 1; else 0"),
  (b!"len", b!"yields length of byte value A"),
  (b!"itob", b!"converts uint64 A to big-endian byte array, always of length 8"),
  (b!"btoi", b!"converts big-endian byte array A to uint64. Fails if len(A) > 8. Padded by leading 0s if len(A) < 8."),
  (b!"%", b!"A modulo B. Fail if B == 0."),
  (b!"|", b!"A bitwise-or B"),
  (b!"&", b!"A bitwise-and B"),
  (b!"^", b!"A bitwise-xor B"),
  (b!"~", b!"bitwise invert value A"),
  (b!"shl", b!"A times 2^B, modulo 2^64"),
  (b!"shr", b!"A divided by 2^B"),
  (b!"sqrt", b!"The largest integer I such that I^2 <= A"),
  (b!"bitlen", b!"The highest set bit in A. If A is a byte-array, it is interpreted as a big-endian unsigned integer. " ++ b!"bitlen of 0 is 0, bitlen of 8 is 4"),
  (b!"exp", b!"A raised to the Bth power. Fail if A == B == 0 and on overflow"),
  (b!"expw", b!"A raised to the Bth power as a 128-bit result in two uint64s. X is the high 64 bits, Y is the low. F" ++ b!"ail if A == B == 0 or if the results exceeds 2^128-1"),
  (b!"mulw", b!"A times B as a 128-bit result in two uint64s. X is the high 64 bits, Y is the low"),
  (b!"addw", b!"A plus B as a 128-bit result. X is the carry-bit, Y is the low-order 64 bits."),
  (b!"divw", b!"A,B / C. Fail if C == 0 or if result overflows."),
  (b!"divmodw", b!"W,X = (A,B / C,D); Y,Z = (A,B modulo C,D)"),
  (b!"intcblock", b!"prepare block of uint64 constants for use by intc"),
  (b!"intc", b!"Ith constant from intcblock"),
  (b!"intc_0", b!"constant 0 from intcblock"),
  (b!"intc_1", b!"constant 1 from intcblock"),
  (b!"intc_2", b!"constant 2 from intcblock"),
  (b!"intc_3", b!"constant 3 from intcblock"),
  (b!"pushint", b!"immediate UINT"),
  (b!"pushints", b!"push sequence of immediate uints to stack in the order they appear (first uint being deepest)"),
  (b!"bytecblock", b!"prepare block of byte-array constants for use by bytec"),
  (b!"bytec", b!"Ith constant from bytecblock"),
  (b!"bytec_0", b!"constant 0 from bytecblock"),
  (b!"bytec_1", b!"constant 1 from bytecblock"),
  (b!"bytec_2", b!"constant 2 from bytecblock"),
  (b!"bytec_3", b!"constant 3 from bytecblock"),
  (b!"pushbytes", b!"immediate BYTES"),
  (b!"pushbytess", b!"push sequences of immediate byte arrays to stack (first byte array being deepest)"),
  (b!"bzero", b!"zero filled byte-array of length A"),
  (b!"arg", b!"Nth LogicSig argument"),
  (b!"arg_0", b!"LogicSig argument 0"),
  (b!"arg_1", b!"LogicSig argument 1"),
  (b!"arg_2", b!"LogicSig argument 2"),
  (b!"arg_3", b!"LogicSig argument 3"),
  (b!"args", b!"Ath LogicSig argument"),
  (b!"txn", b!"field F of current transaction"),
  (b!"gtxn", b!"field F of the Tth transaction in the current group"),
  (b!"gtxns", b!"field F of the Ath transaction in the current group"),
  (b!"txna", b!"Ith value of the array field F of the current transaction"),
  (b!"gtxna", b!"Ith value of the array field F from the Tth transaction in the current group"),
  (b!"gtxnsa", b!"Ith value of the array field F from the Ath transaction in the current group"),
  (b!"txnas", b!"Ath value of the array field F of the current transaction"),
  (b!"gtxnas", b!"Ath value of the array field F from the Tth transaction in the current group"),
  (b!"gtxnsas", b!"Bth value of the array field F from the Ath transaction in the current group"),
  (b!"itxn", b!"field F of the last inner transaction"),
  (b!"itxna", b!"Ith value of the array field F of the last inner transaction"),
  (b!"itxnas", b!"Ath value of the array field F of the last inner transaction"),
  (b!"gitxn", b!"field F of the Tth transaction in the last inner group submitted"),
  (b!"gitxna", b!"Ith value of the array field F from the Tth transaction in the last inner group submitted"),
  (b!"gitxnas", b!"Ath value of the array field F from the Tth transaction in the last inner group submitted"),
  (b!"global", b!"global field F"),
  (b!"load", b!"Ith scratch space value. All scratch spaces are 0 at program start."),
  (b!"store", b!"store A to the Ith scratch space"),
  (b!"loads", b!"Ath scratch space value.  All scratch spaces are 0 at program start."),
  (b!"stores", b!"store B to the Ath scratch space"),
  (b!"gload", b!"Ith scratch space value of the Tth transaction in the current group"),
  (b!"gloads", b!"Ith scratch space value of the Ath transaction in the current group"),
  (b!"gloadss", b!"Bth scratch space value of the Ath transaction in the current group"),
  (b!"gaid", b!"ID of the asset or application created in the Tth transaction of the current group"),
  (b!"gaids", b!"ID of the asset or application created in the Ath transaction of the current group"),
  (b!"json_ref", b!"key B's value, of type R, from a [valid](jsonspec.md) utf-8 encoded json object A"),
  (b!"bnz", b!"branch to TARGET if value A is not zero"),
  (b!"bz", b!"branch to TARGET if value A is zero"),
  (b!"b", b!"branch unconditionally to TARGET"),
  (b!"return", b!"use A as success value; end"),
  (b!"pop", b!"discard A"),
  (b!"dup", b!"duplicate A"),
  (b!"dup2", b!"duplicate A and B"),
  (b!"dupn", b!"duplicate A, N times"),
  (b!"dig", b!"Nth value from the top of the stack. dig 0 is equivalent to dup"),
  (b!"bury", b!"replace the Nth value from the top of the stack with A. bury 0 fails."),
  (b!"cover", b!"remove top of stack, and place it deeper in the stack such that N elements are above it. Fails if st" ++ b!"ack depth <= N."),
  (b!"uncover", b!"remove the value at depth N in the stack and shift above items down so the Nth deep value is on top " ++ b!"of the stack. Fails if stack depth <= N."),
  (b!"swap", b!"swaps A and B on stack"),
  (b!"select", b!"selects one of two values based on top-of-stack: B if C != 0, else A"),
  (b!"concat", b!"join A and B"),
  (b!"substring", b!"A range of bytes from A starting at S up to but not including E. If E < S, or either is larger than " ++ b!"the array length, the program fails"),
  (b!"substring3", b!"A range of bytes from A starting at B up to but not including C. If C < B, or either is larger than " ++ b!"the array length, the program fails"),
  (b!"getbit", b!"Bth bit of (byte-array or integer) A. If B is greater than or equal to the bit length of the value (" ++ b!"8*byte length), the program fails"),
  (b!"setbit", b!"Copy of (byte-array or integer) A, with the Bth bit set to (0 or 1) C. If B is greater than or equal" ++ b!" to the bit length of the value (8*byte length), the program fails"),
  (b!"getbyte", b!"Bth byte of A, as an integer. If B is greater than or equal to the array length, the program fails"),
  (b!"setbyte", b!"Copy of A with the Bth byte set to small integer (between 0..255) C. If B is greater than or equal t" ++ b!"o the array length, the program fails"),
  (b!"extract", b!"A range of bytes from A starting at S up to but not including S+L. If L is 0, then extract to the en" ++ b!"d of the string. If S or S+L is larger than the array length, the program fails"),
  (b!"extract3", b!"A range of bytes from A starting at B up to but not including B+C. If B+C is larger than the array l" ++ b!"ength, the program fails"),
  (b!"extract_uint16", b!"A uint16 formed from a range of big-endian bytes from A starting at B up to but not including B+2. I" ++ b!"f B+2 is larger than the array length, the program fails"),
  (b!"extract_uint32", b!"A uint32 formed from a range of big-endian bytes from A starting at B up to but not including B+4. I" ++ b!"f B+4 is larger than the array length, the program fails"),
  (b!"extract_uint64", b!"A uint64 formed from a range of big-endian bytes from A starting at B up to but not including B+8. I" ++ b!"f B+8 is larger than the array length, the program fails"),
  (b!"replace2", b!"Copy of A with the bytes starting at S replaced by the bytes of B. Fails if S+len(B) exceeds len(A)"),
  (b!"replace3", b!"Copy of A with the bytes starting at B replaced by the bytes of C. Fails if B+len(C) exceeds len(A)"),
  (b!"base64_decode", b!"decode A which was base64-encoded using _encoding_ E. Fail if A is not base64 encoded with encoding " ++ b!"E"),
  (b!"balance", b!"balance for account A, in microalgos. The balance is observed after the effects of previous transact" ++ b!"ions in the group, and after the fee for the current transaction is deducted. Changes caused by inne" ++ b!"r transactions are observable immediately following `itxn_submit`"),
  (b!"min_balance", b!"minimum required balance for account A, in microalgos. Required balance is affected by ASA, App, and" ++ b!" Box usage. When creating or opting into an app, the minimum balance grows before the app code runs," ++ b!" therefore the increase is visible there. When deleting or closing out, the minimum balance decrease" ++ b!"s after the app executes. Changes caused by inner transactions or box usage are observable immediate" ++ b!"ly following the opcode effecting the change."),
  (b!"app_opted_in", b!"1 if account A is opted in to application B, else 0"),
  (b!"app_local_get", b!"local state of the key B in the current application in account A"),
  (b!"app_local_get_ex", b!"X is the local state of application B, key C in account A. Y is 1 if key existed, else 0"),
  (b!"app_global_get", b!"global state of the key A in the current application"),
  (b!"app_global_get_ex", b!"X is the global state of application A, key B. Y is 1 if key existed, else 0"),
  (b!"app_local_put", b!"write C to key B in account A's local state of the current application"),
  (b!"app_global_put", b!"write B to key A in the global state of the current application"),
  (b!"app_local_del", b!"delete key B from account A's local state of the current application"),
  (b!"app_global_del", b!"delete key A from the global state of the current application"),
  (b!"asset_holding_get", b!"X is field F from account A's holding of asset B. Y is 1 if A is opted into B, else 0"),
  (b!"asset_params_get", b!"X is field F from asset A. Y is 1 if A exists, else 0"),
  (b!"app_params_get", b!"X is field F from app A. Y is 1 if A exists, else 0"),
  (b!"acct_params_get", b!"X is field F from account A. Y is 1 if A owns positive algos, else 0"),
  (b!"assert", b!"immediately fail unless A is a non-zero number"),
  (b!"callsub", b!"branch unconditionally to TARGET, saving the next instruction on the call stack"),
  (b!"proto", b!"Prepare top call frame for a retsub that will assume A args and R return values."),
  (b!"retsub", b!"pop the top instruction from the call stack and branch to it"),
  (b!"b+", b!"A plus B. A and B are interpreted as big-endian unsigned integers"),
  (b!"b-", b!"A minus B. A and B are interpreted as big-endian unsigned integers. Fail on underflow."),
  (b!"b/", b!"A divided by B (truncated division). A and B are interpreted as big-endian unsigned integers. Fail i" ++ b!"f B is zero."),
  (b!"b*", b!"A times B. A and B are interpreted as big-endian unsigned integers."),
  (b!"b<", b!"1 if A is less than B, else 0. A and B are interpreted as big-endian unsigned integers"),
  (b!"b>", b!"1 if A is greater than B, else 0. A and B are interpreted as big-endian unsigned integers"),
  (b!"b<=", b!"1 if A is less than or equal to B, else 0. A and B are interpreted as big-endian unsigned integers"),
  (b!"b>=", b!"1 if A is greater than or equal to B, else 0. A and B are interpreted as big-endian unsigned integer" ++ b!"s"),
  (b!"b==", b!"1 if A is equal to B, else 0. A and B are interpreted as big-endian unsigned integers"),
  (b!"b!=", b!"0 if A is equal to B, else 1. A and B are interpreted as big-endian unsigned integers"),
  (b!"b%", b!"A modulo B. A and B are interpreted as big-endian unsigned integers. Fail if B is zero."),
  (b!"b|", b!"A bitwise-or B. A and B are zero-left extended to the greater of their lengths"),
  (b!"b&", b!"A bitwise-and B. A and B are zero-left extended to the greater of their lengths"),
  (b!"b^", b!"A bitwise-xor B. A and B are zero-left extended to the greater of their lengths"),
  (b!"b~", b!"A with all bits inverted"),
  (b!"bsqrt", b!"The largest integer I such that I^2 <= A. A and I are interpreted as big-endian unsigned integers"),
  (b!"log", b!"write A to log state of the current application"),
  (b!"itxn_begin", b!"begin preparation of a new inner transaction in a new transaction group"),
  (b!"itxn_next", b!"begin preparation of a new inner transaction in the same transaction group"),
  (b!"itxn_field", b!"set field F of the current inner transaction to A"),
  (b!"itxn_submit", b!"execute the current inner transaction group. Fail if executing this group would exceed the inner tra" ++ b!"nsaction limit, or if any transaction in the group fails."),
  (b!"vrf_verify", b!"Verify the proof B of message A against pubkey C. Returns vrf output and verification flag."),
  (b!"block", b!"field F of block A. Fail unless A falls between txn.LastValid-1002 and txn.FirstValid (exclusive)"),
  (b!"switch", b!"branch to the Ath label. Continue at following instruction if index A exceeds the number of labels."),
  (b!"match", b!"given match cases from A[1] to A[N], branch to the Ith label where A[I] = B. Continue to the followi" ++ b!"ng instruction if no matches are found."),
  (b!"frame_dig", b!"Nth (signed) value from the frame pointer."),
  (b!"frame_bury", b!"replace the Nth (signed) value from the frame pointer in the stack with A"),
  (b!"popn", b!"remove N values from the top of the stack"),
  (b!"box_create", b!"create a box named A, of length B. Fail if A is empty or B exceeds 32,768. Returns 0 if A already ex" ++ b!"isted, else 1"),
  (b!"box_extract", b!"read C bytes from box A, starting at offset B. Fail if A does not exist, or the byte range is outsid" ++ b!"e A's size."),
  (b!"box_replace", b!"write byte-array C into box A, starting at offset B. Fail if A does not exist, or the byte range is " ++ b!"outside A's size."),
  (b!"box_del", b!"delete box named A if it exists. Return 1 if A existed, 0 otherwise"),
  (b!"box_len", b!"X is the length of box A if A exists, else 0. Y is 1 if A exists, else 0."),
  (b!"box_get", b!"X is the contents of box A if A exists, else ''. Y is 1 if A exists, else 0."),
  (b!"box_put", b!"replaces the contents of box A with byte-array B. Fails if A exists and len(B) != len(box A). Create" ++ b!"s A if it does not exist")]

set_option maxRecDepth 30000 in
/-- `opDocExtras` (go_algorand.go:243-307), additional descriptions. -/
def opDocExtras : GoMap Bytes := [
  (b!"vrf_verify", b!"`VrfAlgorand` is the VRF used in Algorand. It is ECVRF-ED25519-SHA512-Elligator2, specified in the I" ++ b!"ETF internet draft [draft-irtf-cfrg-vrf-03](https://datatracker.ietf.org/doc/draft-irtf-cfrg-vrf/03/" ++ b!")."),
  (b!"ed25519verify", b!"The 32 byte public key is the last element on the stack, preceded by the 64 byte signature at the se" ++ b!"cond-to-last element on the stack, preceded by the data which was signed at the third-to-last elemen" ++ b!"t on the stack."),
  (b!"ecdsa_verify", b!"The 32 byte Y-component of a public key is the last element on the stack, preceded by X-component of" ++ b!" a pubkey, preceded by S and R components of a signature, preceded by the data that is fifth element" ++ b!" on the stack. All values are big-endian encoded. The signed data must be 32 bytes long, and signatu" ++ b!"res in lower-S form are only accepted."),
  (b!"ecdsa_pk_decompress", b!"The 33 byte public key in a compressed form to be decompressed into X and Y (top) components. All va" ++ b!"lues are big-endian encoded."),
  (b!"ecdsa_pk_recover", b!"S (top) and R elements of a signature, recovery id and data (bottom) are expected on the stack and u" ++ b!"sed to deriver a public key. All values are big-endian encoded. The signed data must be 32 bytes lon" ++ b!"g."),
  (b!"bn256_add", b!"A, B are curve points in G1 group. Each point consists of (X, Y) where X and Y are 256 bit integers," ++ b!" big-endian encoded. The encoded point is 64 bytes from concatenation of 32 byte X and 32 byte Y."),
  (b!"bn256_scalar_mul", b!"A is a curve point in G1 Group and encoded as described in `bn256_add`. Scalar K is a big-endian enc" ++ b!"oded big integer that has no padding zeros."),
  (b!"bn256_pairing", b!"G1s are encoded by the concatenation of encoded G1 points, as described in `bn256_add`. G2s are enco" ++ b!"ded by the concatenation of encoded G2 points. Each G2 is in form (XA0+i*XA1, YA0+i*YA1) and encoded" ++ b!" by big-endian field element XA0, XA1, YA0 and YA1 in sequence."),
  (b!"bnz", b!"The `bnz` instruction opcode 0x40 is followed by two immediate data bytes which are a high byte firs" ++ b!"t and low byte second which together form a 16 bit offset which the instruction may branch to. For a" ++ b!" bnz instruction at `pc`, if the last element of the stack is not zero then branch to instruction at" ++ b!" `pc + 3 + N`, else proceed to next instruction at `pc + 3`. Branch targets must be aligned instruct" ++ b!"ions. (e.g. Branching to the second byte of a 2 byte op will be rejected.) Starting at v4, the offse" ++ b!"t is treated as a signed 16 bit integer allowing for backward branches and looping. In prior version" ++ b!" (v1 to v3), branch offsets are limited to forward branches only, 0-0x7fff.\n\nAt v2 it became allowed" ++ b!" to branch to the end of the program exactly after the last instruction: bnz to byte N (with 0-index" ++ b!"ing) was illegal for a TEAL program with N bytes before v2, and is legal after it. This change elimi" ++ b!"nates the need for a last instruction of no-op as a branch target at the end. (Branching beyond the " ++ b!"end--in other words, to a byte larger than N--is still illegal and will cause the program to fail.)"),
  (b!"bz", b!"See `bnz` for details on how branches work. `bz` inverts the behavior of `bnz`."),
  (b!"b", b!"See `bnz` for details on how branches work. `b` always jumps to the offset."),
  (b!"callsub", b!"The call stack is separate from the data stack. Only `callsub`, `retsub`, and `proto` manipulate it."),
  (b!"proto", b!"Fails unless the last instruction executed was a `callsub`."),
  (b!"retsub", b!"If the current frame was prepared by `proto A R`, `retsub` will remove the 'A' arguments from the st" ++ b!"ack, move the `R` return values down, and pop any stack locations above the relocated return values."),
  (b!"intcblock", b!"`intcblock` loads following program bytes into an array of integer constants in the evaluator. These" ++ b!" integer constants can be referred to by `intc` and `intc_*` which will push the value onto the stac" ++ b!"k. Subsequent calls to `intcblock` reset and replace the integer constants available to the script."),
  (b!"bytecblock", b!"`bytecblock` loads the following program bytes into an array of byte-array constants in the evaluato" ++ b!"r. These constants can be referred to by `bytec` and `bytec_*` which will push the value onto the st" ++ b!"ack. Subsequent calls to `bytecblock` reset and replace the bytes constants available to the script."),
  (b!"*", b!"Overflow is an error condition which halts execution and fails the transaction. Full precision is av" ++ b!"ailable from `mulw`."),
  (b!"+", b!"Overflow is an error condition which halts execution and fails the transaction. Full precision is av" ++ b!"ailable from `addw`."),
  (b!"/", b!"`divmodw` is available to divide the two-element values produced by `mulw` and `addw`."),
  (b!"bitlen", b!"bitlen interprets arrays as big-endian integers, unlike setbit/getbit"),
  (b!"divw", b!"The notation A,B indicates that A and B are interpreted as a uint128 value, with A as the high uint6" ++ b!"4 and B the low."),
  (b!"divmodw", b!"The notation J,K indicates that two uint64 values J and K are interpreted as a uint128 value, with J" ++ b!" as the high uint64 and K the low."),
  (b!"gtxn", b!"for notes on transaction fields available, see `txn`. If this transaction is _i_ in the group, `gtxn" ++ b!" i field` is equivalent to `txn field`."),
  (b!"gtxns", b!"for notes on transaction fields available, see `txn`. If top of stack is _i_, `gtxns field` is equiv" ++ b!"alent to `gtxn _i_ field`. gtxns exists so that _i_ can be calculated, often based on the index of t" ++ b!"he current transaction."),
  (b!"gload", b!"`gload` fails unless the requested transaction is an ApplicationCall and T < GroupIndex."),
  (b!"gloads", b!"`gloads` fails unless the requested transaction is an ApplicationCall and A < GroupIndex."),
  (b!"gaid", b!"`gaid` fails unless the requested transaction created an asset or application and T < GroupIndex."),
  (b!"gaids", b!"`gaids` fails unless the requested transaction created an asset or application and A < GroupIndex."),
  (b!"btoi", b!"`btoi` fails if the input is longer than 8 bytes."),
  (b!"concat", b!"`concat` fails if the result would be greater than 4096 bytes."),
  (b!"pushbytes", b!"pushbytes args are not added to the bytecblock during assembly processes"),
  (b!"pushbytess", b!"pushbytess args are not added to the bytecblock during assembly processes"),
  (b!"pushint", b!"pushint args are not added to the intcblock during assembly processes"),
  (b!"pushints", b!"pushints args are not added to the intcblock during assembly processes"),
  (b!"getbit", b!"see explanation of bit ordering in setbit"),
  (b!"setbit", b!"When A is a uint64, index 0 is the least significant bit. Setting bit 3 to 1 on the integer 0 yields" ++ b!" 8, or 2^3. When A is a byte array, index 0 is the leftmost bit of the leftmost byte. Setting bits 0" ++ b!" through 11 to 1 in a 4-byte-array of 0s yields the byte array 0xfff00000. Setting bit 3 to 1 on the" ++ b!" 1-byte-array 0x00 yields the byte array 0x10."),
  (b!"balance", b!"params: Txn.Accounts offset (or, since v4, an _available_ account address), _available_ application " ++ b!"id (or, since v4, a Txn.ForeignApps offset). Return: value."),
  (b!"min_balance", b!"params: Txn.Accounts offset (or, since v4, an _available_ account address), _available_ application " ++ b!"id (or, since v4, a Txn.ForeignApps offset). Return: value."),
  (b!"app_opted_in", b!"params: Txn.Accounts offset (or, since v4, an _available_ account address), _available_ application " ++ b!"id (or, since v4, a Txn.ForeignApps offset). Return: 1 if opted in and 0 otherwise."),
  (b!"app_local_get", b!"params: Txn.Accounts offset (or, since v4, an _available_ account address), state key. Return: value" ++ b!". The value is zero (of type uint64) if the key does not exist."),
  (b!"app_local_get_ex", b!"params: Txn.Accounts offset (or, since v4, an _available_ account address), _available_ application " ++ b!"id (or, since v4, a Txn.ForeignApps offset), state key. Return: did_exist flag (top of the stack, 1 " ++ b!"if the application and key existed and 0 otherwise), value. The value is zero (of type uint64) if th" ++ b!"e key does not exist."),
  (b!"app_global_get_ex", b!"params: Txn.ForeignApps offset (or, since v4, an _available_ application id), state key. Return: did" ++ b!"_exist flag (top of the stack, 1 if the application and key existed and 0 otherwise), value. The val" ++ b!"ue is zero (of type uint64) if the key does not exist."),
  (b!"app_global_get", b!"params: state key. Return: value. The value is zero (of type uint64) if the key does not exist."),
  (b!"app_local_put", b!"params: Txn.Accounts offset (or, since v4, an _available_ account address), state key, value."),
  (b!"app_local_del", b!"params: Txn.Accounts offset (or, since v4, an _available_ account address), state key.\n\nDeleting a k" ++ b!"ey which is already absent has no effect on the application local state. (In particular, it does _no" ++ b!"t_ cause the program to fail.)"),
  (b!"app_global_del", b!"params: state key.\n\nDeleting a key which is already absent has no effect on the application global s" ++ b!"tate. (In particular, it does _not_ cause the program to fail.)"),
  (b!"asset_holding_get", b!"params: Txn.Accounts offset (or, since v4, an _available_ address), asset id (or, since v4, a Txn.Fo" ++ b!"reignAssets offset). Return: did_exist flag (1 if the asset existed and 0 otherwise), value."),
  (b!"asset_params_get", b!"params: Txn.ForeignAssets offset (or, since v4, an _available_ asset id. Return: did_exist flag (1 i" ++ b!"f the asset existed and 0 otherwise), value."),
  (b!"app_params_get", b!"params: Txn.ForeignApps offset or an _available_ app id. Return: did_exist flag (1 if the applicatio" ++ b!"n existed and 0 otherwise), value."),
  (b!"log", b!"`log` fails if called more than MaxLogCalls times in a program, or if the sum of logged bytes exceed" ++ b!"s 1024 bytes."),
  (b!"itxn_begin", b!"`itxn_begin` initializes Sender to the application address; Fee to the minimum allowable, taking int" ++ b!"o account MinTxnFee and credit from overpaying in earlier transactions; FirstValid/LastValid to the " ++ b!"values in the invoking transaction, and all other fields to zero or empty values."),
  (b!"itxn_next", b!"`itxn_next` initializes the transaction exactly as `itxn_begin` does"),
  (b!"itxn_field", b!"`itxn_field` fails if A is of the wrong type for F, including a byte array of the wrong size for use" ++ b!" as an address when F is an address field. `itxn_field` also fails if A is an account, asset, or app" ++ b!" that is not _available_, or an attempt is made extend an array field beyond the limit imposed by co" ++ b!"nsensus parameters. (Addresses set into asset params of acfg transactions need not be _available_.)"),
  (b!"itxn_submit", b!"`itxn_submit` resets the current transaction so that it can not be resubmitted. A new `itxn_begin` i" ++ b!"s required to prepare another inner transaction."),
  (b!"base64_decode", b!"*Warning*: Usage should be restricted to very rare use cases. In almost all cases, smart contracts s" ++ b!"hould directly handle non-encoded byte-strings.\tThis opcode should only be used in cases where base6" ++ b!"4 is the only available option, e.g. interoperability with a third-party that only signs base64 stri" ++ b!"ngs.\n\n Decodes A using the base64 encoding E. Specify the encoding with an immediate arg either as U" ++ b!"RL and Filename Safe (`URLEncoding`) or Standard (`StdEncoding`). See [RFC 4648 sections 4 and 5](ht" ++ b!"tps://rfc-editor.org/rfc/rfc4648.html#section-4). It is assumed that the encoding ends with the exac" ++ b!"t number of `=` padding characters as required by the RFC. When padding occurs, any unused pad bits " ++ b!"in the encoding must be set to zero or the decoding will fail. The special cases of `\\n` and `\\r` ar" ++ b!"e allowed but completely ignored. An error will result when attempting to decode a string with a cha" ++ b!"racter that is not in the encoding alphabet or not one of `=`, `\\r`, or `\\n`."),
  (b!"json_ref", b!"*Warning*: Usage should be restricted to very rare use cases, as JSON decoding is expensive and quit" ++ b!"e limited. In addition, JSON objects are large and not optimized for size.\n\nAlmost all smart contrac" ++ b!"ts should use simpler and smaller methods (such as the [ABI](https://arc.algorand.foundation/ARCs/ar" ++ b!"c-0004). This opcode should only be used in cases where JSON is only available option, e.g. when a t" ++ b!"hird-party only signs JSON."),
  (b!"match", b!"`match` consumes N+1 values from the stack. Let the top stack value be B. The following N values rep" ++ b!"resent an ordered list of match cases/constants (A), where the first value (A[0]) is the deepest in " ++ b!"the stack. The immediate arguments are an ordered list of N labels (T). `match` will branch to targe" ++ b!"t T[I], where A[I] = B. If there are no matches then execution continues on to the next instruction."),
  (b!"box_create", b!"Newly created boxes are filled with 0 bytes. `box_create` will fail if the referenced box already ex" ++ b!"ists with a different size. Otherwise, existing boxes are unchanged by `box_create`."),
  (b!"box_get", b!"For boxes that exceed 4,096 bytes, consider `box_create`, `box_extract`, and `box_replace`"),
  (b!"box_put", b!"For boxes that exceed 4,096 bytes, consider `box_create`, `box_extract`, and `box_replace`")]

/-- The documentation of `txnFieldSpecs` (go_algorand.go:683-769); the flag is set for `effects`. -/
def txnDocs : List (Bool × Bytes) := [
  (false, b!"32 byte address") /- Sender -/,
  (false, b!"microalgos") /- Fee -/,
  (false, b!"round number") /- FirstValid -/,
  (false, b!"UNIX timestamp of block before txn.FirstValid. Fails if negative") /- FirstValidTime -/,
  (false, b!"round number") /- LastValid -/,
  (false, b!"Any data up to 1024 bytes") /- Note -/,
  (false, b!"32 byte lease value") /- Lease -/,
  (false, b!"32 byte address") /- Receiver -/,
  (false, b!"microalgos") /- Amount -/,
  (false, b!"32 byte address") /- CloseRemainderTo -/,
  (false, b!"32 byte address") /- VotePK -/,
  (false, b!"32 byte address") /- SelectionPK -/,
  (false, b!"The first round that the participation key is valid.") /- VoteFirst -/,
  (false, b!"The last round that the participation key is valid.") /- VoteLast -/,
  (false, b!"Dilution for the 2-level participation key") /- VoteKeyDilution -/,
  (false, b!"Transaction type as bytes") /- Type -/,
  (false, b!"Transaction type as integer") /- TypeEnum -/,
  (false, b!"Asset ID") /- XferAsset -/,
  (false, b!"value in Asset's units") /- AssetAmount -/,
  (false, b!"32 byte address. Source of assets if Sender is the Asset's Clawback address.") /- AssetSender -/,
  (false, b!"32 byte address") /- AssetReceiver -/,
  (false, b!"32 byte address") /- AssetCloseTo -/,
  (false, b!"Position of this transaction within an atomic transaction group. A stand-alone transaction is implic" ++ b!"itly element 0 in a group of 1") /- GroupIndex -/,
  (false, b!"The computed ID for this transaction. 32 bytes.") /- TxID -/,
  (false, b!"ApplicationID from ApplicationCall transaction") /- ApplicationID -/,
  (false, b!"ApplicationCall transaction on completion action") /- OnCompletion -/,
  (false, b!"Arguments passed to the application in the ApplicationCall transaction") /- ApplicationArgs -/,
  (false, b!"Number of ApplicationArgs") /- NumAppArgs -/,
  (false, b!"Accounts listed in the ApplicationCall transaction") /- Accounts -/,
  (false, b!"Number of Accounts") /- NumAccounts -/,
  (false, b!"Approval program") /- ApprovalProgram -/,
  (false, b!"Clear state program") /- ClearStateProgram -/,
  (false, b!"32 byte Sender's new AuthAddr") /- RekeyTo -/,
  (false, b!"Asset ID in asset config transaction") /- ConfigAsset -/,
  (false, b!"Total number of units of this asset created") /- ConfigAssetTotal -/,
  (false, b!"Number of digits to display after the decimal place when displaying the asset") /- ConfigAssetDecimals -/,
  (false, b!"Whether the asset's slots are frozen by default or not, 0 or 1") /- ConfigAssetDefaultFrozen -/,
  (false, b!"Unit name of the asset") /- ConfigAssetUnitName -/,
  (false, b!"The asset name") /- ConfigAssetName -/,
  (false, b!"URL") /- ConfigAssetURL -/,
  (false, b!"32 byte commitment to unspecified asset metadata") /- ConfigAssetMetadataHash -/,
  (false, b!"32 byte address") /- ConfigAssetManager -/,
  (false, b!"32 byte address") /- ConfigAssetReserve -/,
  (false, b!"32 byte address") /- ConfigAssetFreeze -/,
  (false, b!"32 byte address") /- ConfigAssetClawback -/,
  (false, b!"Asset ID being frozen or un-frozen") /- FreezeAsset -/,
  (false, b!"32 byte address of the account whose asset slot is being frozen or un-frozen") /- FreezeAssetAccount -/,
  (false, b!"The new frozen value, 0 or 1") /- FreezeAssetFrozen -/,
  (false, b!"Foreign Assets listed in the ApplicationCall transaction") /- Assets -/,
  (false, b!"Number of Assets") /- NumAssets -/,
  (false, b!"Foreign Apps listed in the ApplicationCall transaction") /- Applications -/,
  (false, b!"Number of Applications") /- NumApplications -/,
  (false, b!"Number of global state integers in ApplicationCall") /- GlobalNumUint -/,
  (false, b!"Number of global state byteslices in ApplicationCall") /- GlobalNumByteSlice -/,
  (false, b!"Number of local state integers in ApplicationCall") /- LocalNumUint -/,
  (false, b!"Number of local state byteslices in ApplicationCall") /- LocalNumByteSlice -/,
  (false, b!"Number of additional pages for each of the application's approval and clear state programs. An Extra" ++ b!"ProgramPages of 1 means 2048 more total bytes, or 1024 for each program.") /- ExtraProgramPages -/,
  (false, b!"Marks an account nonparticipating for rewards") /- Nonparticipation -/,
  (true, b!"Log messages emitted by an application call (only with `itxn` in v5)") /- Logs -/,
  (true, b!"Number of Logs (only with `itxn` in v5)") /- NumLogs -/,
  (true, b!"Asset ID allocated by the creation of an ASA (only with `itxn` in v5)") /- CreatedAssetID -/,
  (true, b!"ApplicationID allocated by the creation of an application (only with `itxn` in v5)") /- CreatedApplicationID -/,
  (true, b!"The last message emitted. Empty bytes if none were emitted") /- LastLog -/,
  (false, b!"64 byte state proof public key") /- StateProofPK -/,
  (false, b!"Approval Program as an array of pages") /- ApprovalProgramPages -/,
  (false, b!"Number of Approval Program pages") /- NumApprovalProgramPages -/,
  (false, b!"ClearState Program as an array of pages") /- ClearStateProgramPages -/,
  (false, b!"Number of ClearState Program pages") /- NumClearStateProgramPages -/]

/-- The documentation of `globalFieldSpecs` (go_algorand.go:980-1005); the flag is set for `modeApp`. -/
def globalDocs : List (Bool × Bytes) := [
  (false, b!"microalgos") /- MinTxnFee -/,
  (false, b!"microalgos") /- MinBalance -/,
  (false, b!"rounds") /- MaxTxnLife -/,
  (false, b!"32 byte address of all zero bytes") /- ZeroAddress -/,
  (false, b!"Number of transactions in this atomic transaction group. At least 1") /- GroupSize -/,
  (false, b!"Maximum supported version") /- LogicSigVersion -/,
  (true, b!"Current round number") /- Round -/,
  (true, b!"Last confirmed block UNIX timestamp. Fails if negative") /- LatestTimestamp -/,
  (true, b!"ID of current application executing") /- CurrentApplicationID -/,
  (true, b!"Address of the creator of the current application") /- CreatorAddress -/,
  (true, b!"Address that the current application controls") /- CurrentApplicationAddress -/,
  (false, b!"ID of the transaction group. 32 zero bytes if the transaction is not part of a group.") /- GroupID -/,
  (false, b!"The remaining cost that can be spent by opcodes in this program.") /- OpcodeBudget -/,
  (true, b!"The application ID of the application that called this application. 0 if this application is at the " ++ b!"top-level.") /- CallerApplicationID -/,
  (true, b!"The application address of the application that called this application. ZeroAddress if this applica" ++ b!"tion is at the top-level.") /- CallerApplicationAddress -/]

/-- The documentation of `ecdsaCurveSpecs` (go_algorand.go:1065-1068); the flag is set for none. -/
def ecdsaDocs : List (Bool × Bytes) := [
  (false, b!"secp256k1 curve, used in Bitcoin") /- Secp256k1 -/,
  (false, b!"secp256r1 curve, NIST standard") /- Secp256r1 -/]

/-- The documentation of `ecGroupSpecs` (go_algorand.go:2171-2176); the flag is set for none. -/
def ecGroupDocs : List (Bool × Bytes) := [
  (false, b!"G1 of the BN254 curve. Points encoded as 32 byte X following by 32 byte Y") /- BN254_G1 -/,
  (false, b!"G2 of the BN254 curve. Points encoded as 64 byte X following by 64 byte Y") /- BN254_G2 -/,
  (false, b!"G1 of the BLS 12-381 curve. Points encoded as 48 byte X following by 48 byte Y") /- BLS12_381_G1 -/,
  (false, b!"G2 of the BLS 12-381 curve. Points encoded as 96 byte X following by 48 byte Y") /- BLS12_381_G2 -/]

/-- The documentation of `assetHoldingFieldSpecs` (go_algorand.go:1398-1401); the flag is set for none. -/
def assetHoldingDocs : List (Bool × Bytes) := [
  (false, b!"Amount of the asset unit held by this account") /- AssetBalance -/,
  (false, b!"Is the asset frozen or not") /- AssetFrozen -/]

/-- The documentation of `assetParamsFieldSpecs` (go_algorand.go:1484-1497); the flag is set for none. -/
def assetParamsDocs : List (Bool × Bytes) := [
  (false, b!"Total number of units of this asset") /- AssetTotal -/,
  (false, b!"See AssetParams.Decimals") /- AssetDecimals -/,
  (false, b!"Frozen by default or not") /- AssetDefaultFrozen -/,
  (false, b!"Asset unit name") /- AssetUnitName -/,
  (false, b!"Asset name") /- AssetName -/,
  (false, b!"URL with additional info about the asset") /- AssetURL -/,
  (false, b!"Arbitrary commitment") /- AssetMetadataHash -/,
  (false, b!"Manager address") /- AssetManager -/,
  (false, b!"Reserve address") /- AssetReserve -/,
  (false, b!"Freeze address") /- AssetFreeze -/,
  (false, b!"Clawback address") /- AssetClawback -/,
  (false, b!"Creator address") /- AssetCreator -/]

/-- The documentation of `appParamsFieldSpecs` (go_algorand.go:1575-1585); the flag is set for none. -/
def appParamsDocs : List (Bool × Bytes) := [
  (false, b!"Bytecode of Approval Program") /- AppApprovalProgram -/,
  (false, b!"Bytecode of Clear State Program") /- AppClearStateProgram -/,
  (false, b!"Number of uint64 values allowed in Global State") /- AppGlobalNumUint -/,
  (false, b!"Number of byte array values allowed in Global State") /- AppGlobalNumByteSlice -/,
  (false, b!"Number of uint64 values allowed in Local State") /- AppLocalNumUint -/,
  (false, b!"Number of byte array values allowed in Local State") /- AppLocalNumByteSlice -/,
  (false, b!"Number of Extra Program Pages of code space") /- AppExtraProgramPages -/,
  (false, b!"Creator address") /- AppCreator -/,
  (false, b!"Address for which this application has authority") /- AppAddress -/]

/-- The documentation of `acctParamsFieldSpecs` (go_algorand.go:1673-1687); the flag is set for none. -/
def acctParamsDocs : List (Bool × Bytes) := [
  (false, b!"Account balance in microalgos") /- AcctBalance -/,
  (false, b!"Minimum required balance for account, in microalgos") /- AcctMinBalance -/,
  (false, b!"Address the account is rekeyed to.") /- AcctAuthAddr -/,
  (false, b!"The total number of uint64 values allocated by this account in Global and Local States.") /- AcctTotalNumUint -/,
  (false, b!"The total number of byte array values allocated by this account in Global and Local States.") /- AcctTotalNumByteSlice -/,
  (false, b!"The number of extra app code pages used by this account.") /- AcctTotalExtraAppPages -/,
  (false, b!"The number of existing apps created by this account.") /- AcctTotalAppsCreated -/,
  (false, b!"The number of apps this account is opted into.") /- AcctTotalAppsOptedIn -/,
  (false, b!"The number of existing ASAs created by this account.") /- AcctTotalAssetsCreated -/,
  (false, b!"The numbers of ASAs held by this account (including ASAs this account created).") /- AcctTotalAssets -/,
  (false, b!"The number of existing boxes created by this account's app.") /- AcctTotalBoxes -/,
  (false, b!"The total number of bytes used by this account's app's box keys and values.") /- AcctTotalBoxBytes -/]


/-- The entry of a map, or the empty string. -/
def entry (m : GoMap Bytes) (k : Bytes) : Bytes := (m.get k).getD []

/-- `Doc` of the item of an opcode (process.go:1465); the items are those of `Ops`. -/
def opDoc (name : Bytes) : Bytes := Wire.opText name fun _ => entry opDocByName name

/-- `FullDoc` of the item of an opcode (process.go:1464-1475). -/
def fullDoc (name : Bytes) : Bytes :=
  Wire.opText name fun _ =>
    let doc := entry opDocByName name
    let extra := entry opDocExtras name
    if extra = [] then doc else if doc = [] then extra else doc ++ [chLF] ++ extra

/-- `addExtra` (go_algorand.go:1833-1845). -/
def addExtra (original extra : Bytes) : Bytes :=
  if original = [] then extra
  else if extra = [] then original
  else original ++ (if original.getLast? = some 46 then [chSpace] else b!". ") ++ extra

/-- The documentation of the fields of a group.  Some groups have none (go_algorand.go:1139-1142, 1206-1209,
1275-1278, 1347-1349). -/
def groupDocs : FieldGroup → List (Bool × Bytes)
  | .txn => txnDocs
  | .global => globalDocs
  | .ecdsa => ecdsaDocs
  | .ecGroup => ecGroupDocs
  | .base64 | .jsonRef | .vrf | .block => []
  | .assetHolding => assetHoldingDocs
  | .assetParams => assetParamsDocs
  | .appParams => appParamsDocs
  | .acctParams => acctParamsDocs

/-- What `Note` adds to the documentation of a flagged field (go_algorand.go:675-681, 971-978). -/
def flagNote : FieldGroup → Bytes
  | .txn => b!"Application mode only"
  | .global => b!"Application mode only."
  | _ => []

/-- `Note` of a field (go_algorand.go:675, 971, 1061, 1139, 1206, 1275, 1347, 1394, 1480, 1571, 1669, 2167). -/
def note (g : FieldGroup) (n : Nat) : Bytes :=
  match (groupDocs g)[n]? with
  | some (true, doc) => addExtra doc (flagNote g)
  | some (false, doc) => doc
  | none => []

/-- The groups, in any order. -/
def groups : List FieldGroup :=
  [.txn, .global, .ecdsa, .ecGroup, .base64, .jsonRef, .vrf, .block, .assetHolding, .assetParams, .appParams, .acctParams]

/-- The group of a field of some name and number.  In the code it is that of the operand: no two groups have a
field of the same name and number (`group_unique`). -/
def groupOf (name : Bytes) (n : Nat) : Option FieldGroup :=
  groups.find? fun g => n < g.specs.length && g.str n == name

/-- `DocAt` (process.go:2906-3114): the text for what is shown. -/
def hover : Lsp.Shown → Bytes
  | .op name => fullDoc name
  | .field name n =>
    match groupOf name n with
    | some g => g.str n ++ b!" = " ++ formatUint n ++ b!"\r\n" ++ note g n
    | none => []

/-- `Docs` of a value of an argument that is not a label (process.go:63-236, 2787-2804). -/
def argDoc (v : ArgVal) : Bytes :=
  match v.value with
  | some n => match groupOf v.name n with
    | some g => note g n
    | none => []
  | none => []

/-- The texts of the server.  The messages about operands remain a parameter: see `Verif.Model.Message`. -/
def texts (operand : Lsp.LspDiag → Bytes) : Wire.Texts where
  hover := hover
  operand := operand
  fullDoc := fullDoc
  opDoc := opDoc
  argDoc := argDoc

end Teal.Docs
