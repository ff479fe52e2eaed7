import Verif.Model.Basic

/-!
# The opcodes of the AVM: since which version each is available in applications and in logic signatures

Written from the AVM opcode reference.  The elliptic curve opcodes (`ec_*`) are listed with
version 9, the value of `pairingVersion` at the time of the pinned commit.  `int`, `byte`, `addr`,
`method` and `replace` are pseudo opcodes of the assembler.
-/

namespace Teal.Spec

open Teal

/-- An opcode and the version that introduced it, per kind of program; `none`: not available. -/
structure DocOp where
  name : Bytes
  app : Option Nat
  sig : Option Nat
deriving DecidableEq, Repr

def bothSince (v : Nat) (ns : List Bytes) : List DocOp := ns.map fun n => ⟨n, some v, some v⟩
def appSince (v : Nat) (ns : List Bytes) : List DocOp := ns.map fun n => ⟨n, some v, none⟩
def sigSince (v : Nat) (ns : List Bytes) : List DocOp := ns.map fun n => ⟨n, none, some v⟩

/-- The opcodes. -/
def docOps : List DocOp :=
  bothSince 1 [
    b!"byte", b!"int", b!"method", b!"addr", b!"err", b!"sha256", b!"keccak256",
    b!"sha512_256", b!"+", b!"-", b!"/", b!"*", b!"<", b!">", b!"<=", b!">=", b!"&&",
    b!"||", b!"==", b!"!=", b!"!", b!"len", b!"itob", b!"btoi", b!"%", b!"|", b!"&", b!"^",
    b!"~", b!"mulw", b!"intcblock", b!"intc", b!"intc_0", b!"intc_1", b!"intc_2",
    b!"intc_3", b!"bytecblock", b!"bytec", b!"bytec_0", b!"bytec_1", b!"bytec_2",
    b!"bytec_3", b!"txn", b!"global", b!"gtxn", b!"load", b!"store", b!"bnz", b!"pop",
    b!"dup"] ++
  bothSince 2 [
    b!"addw", b!"txna", b!"gtxna", b!"bz", b!"b", b!"return", b!"dup2", b!"concat",
    b!"substring", b!"substring3"] ++
  bothSince 3 [
    b!"gtxns", b!"gtxnsa", b!"assert", b!"dig", b!"swap", b!"select", b!"getbit",
    b!"setbit", b!"getbyte", b!"setbyte", b!"pushbytes", b!"pushint"] ++
  bothSince 4 [
    b!"divmodw", b!"callsub", b!"retsub", b!"shl", b!"shr", b!"sqrt", b!"bitlen", b!"exp",
    b!"expw", b!"b+", b!"b-", b!"b/", b!"b*", b!"b<", b!"b>", b!"b<=", b!"b>=", b!"b==",
    b!"b!=", b!"b%", b!"b|", b!"b&", b!"b^", b!"b~", b!"bzero"] ++
  bothSince 5 [
    b!"ecdsa_verify", b!"ecdsa_pk_decompress", b!"ecdsa_pk_recover", b!"loads", b!"stores",
    b!"cover", b!"uncover", b!"extract", b!"extract3", b!"extract_uint16",
    b!"extract_uint32", b!"extract_uint64", b!"txnas", b!"gtxnas", b!"gtxnsas"] ++
  bothSince 6 [
    b!"bsqrt", b!"divw"] ++
  bothSince 7 [
    b!"replace", b!"replace2", b!"replace3", b!"base64_decode", b!"json_ref",
    b!"ed25519verify_bare", b!"sha3_256", b!"vrf_verify", b!"block"] ++
  bothSince 8 [
    b!"bury", b!"popn", b!"dupn", b!"pushbytess", b!"pushints", b!"proto", b!"frame_dig",
    b!"frame_bury", b!"switch", b!"match"] ++
  bothSince 9 [
    b!"ec_add", b!"ec_scalar_mul", b!"ec_pairing_check", b!"ec_multi_exp",
    b!"ec_subgroup_check", b!"ec_map_to"] ++
  appSince 2 [
    b!"balance", b!"app_opted_in", b!"app_local_get", b!"app_local_get_ex",
    b!"app_global_get", b!"app_global_get_ex", b!"app_local_put", b!"app_global_put",
    b!"app_local_del", b!"app_global_del", b!"asset_holding_get", b!"asset_params_get"] ++
  appSince 3 [
    b!"min_balance"] ++
  appSince 4 [
    b!"gload", b!"gloads", b!"gaid", b!"gaids"] ++
  appSince 5 [
    b!"app_params_get", b!"log", b!"itxn_begin", b!"itxn_field", b!"itxn_submit", b!"itxn",
    b!"itxna"] ++
  appSince 6 [
    b!"acct_params_get", b!"itxn_next", b!"gitxn", b!"gitxna", b!"gloadss", b!"itxnas",
    b!"gitxnas"] ++
  appSince 8 [
    b!"box_create", b!"box_extract", b!"box_replace", b!"box_del", b!"box_len", b!"box_get",
    b!"box_put"] ++
  sigSince 1 [
    b!"arg", b!"arg_0", b!"arg_1", b!"arg_2", b!"arg_3"] ++
  [⟨b!"ed25519verify", some 5, some 1⟩, ⟨b!"args", none, some 5⟩]

/-- The version that introduced an opcode, in logic signatures (`sig = true`) or applications. -/
def DocOp.since (d : DocOp) (sig : Bool) : Option Nat := if sig then d.sig else d.app

end Teal.Spec
