import Verif.Spec.Dap
import Verif.Spec.Real
import Verif.Spec.Numbers
import Verif.Spec.Literals

/-!
# Specification: what the debugger displays, and what it claims

The texts are those a user sees in the scopes of a branch.
-/

namespace Teal.Spec

open Teal.Dap

/-- The scope `k` of the branch `b` has a variable called `name` with the value `value`. -/
def Displays (v : Vm) (b : VmBranch) (k : ScopeKind) (name value : Bytes) : Prop :=
  ∃ n x, Entry v b k n x ∧ name = x.label n ∧ value = x.text

/-- How the debugger shows the constants it knows. -/
inductive ConstantText : Op → Bytes → Prop
  | int {n : Nat} {t : Bytes} : DecimalOf n t → ConstantText (.int n) (b!"uint64: " ++ t)
  | byte (b : Bytes) : ConstantText (.byte b) (b!"bytes: b64 " ++ base64 b)
  | pushbytes (b : Bytes) : ConstantText (.pushbytes b) (b!"bytes: b64 " ++ base64 b)
  | method (s : Bytes) : ConstantText (.method s) (b!"bytes: " ++ s)

/-- The stack of the branch `b` is displayed as `ts`, the top first; the variables are called by the
number of the slot, counted from the bottom. -/
def StackShown (v : Vm) (b : VmBranch) (ts : List Bytes) : Prop :=
  ∀ (n : Nat) (t : Bytes), (∃ name, DecimalOf n name ∧ Displays v b .stack name t) ↔ ts.reverse[n]? = some t

/-- The scratch space is displayed as `f`, by the number of the slot; some slots are not displayed. -/
def SlotsShown (v : Vm) (b : VmBranch) (f : Nat → Option Bytes) : Prop :=
  ∀ (n : Nat) (t : Bytes), (∃ name, DecimalOf n name ∧ Displays v b .scratch name t) ↔ f n = some t

/-- The names of types a user sees. -/
def typeName : StackType → Bytes
  | .any => b!"any"
  | .uint64 => b!"uint64"
  | .bytes => b!"bytes"
  | .none => b!"(none)"

/-- How a call is displayed. -/
def called (name : Bytes) (args : List Bytes) : Bytes := name ++ b!"(" ++ b!", ".intercalate args ++ b!")"

/-- `Redisplays o ts f ts' f'`: executing `o` turns the display of the stack from `ts` (the top first)
into `ts'`, and the display of the scratch space from `f` into `f'`. -/
inductive Redisplays : Op → List Bytes → (Nat → Option Bytes) → List Bytes → (Nat → Option Bytes) → Prop
  /-- constants are shown as such -/
  | constant {o : Op} {t : Bytes} {ts : List Bytes} {f : Nat → Option Bytes} : ConstantText o t → Redisplays o ts f (t :: ts) f
  | pushbytess (bs : List Bytes) {ts : List Bytes} {f : Nat → Option Bytes} :
      Redisplays (.pushbytess bs) ts f (bs.reverse.map (fun b => b!"bytes: b64 " ++ base64 b) ++ ts) f
  /-- except for `pushint`, which only shows the type -/
  | pushint (n : Nat) {ts : List Bytes} {f : Nat → Option Bytes} : Redisplays (.pushint n) ts f (b!"uint64" :: ts) f
  /-- loaded values are shown with what was stored -/
  | load (n : Nat) {t : Bytes} {ts : List Bytes} {f : Nat → Option Bytes} : f n = some t →
      Redisplays (.u8 .load n) ts f ((b!"any: " ++ t) :: ts) f
  | loadUnset (n : Nat) {ts : List Bytes} {f : Nat → Option Bytes} : f n = none →
      Redisplays (.u8 .load n) ts f (b!"any: (none)" :: ts) f
  | loads {t : Bytes} {ts : List Bytes} {f : Nat → Option Bytes} : Redisplays (.plain .loads) (t :: ts) f (b!"any" :: ts) f
  /-- the slot shows what the top of the stack showed -/
  | store (n : Nat) {t : Bytes} {ts : List Bytes} {f : Nat → Option Bytes} :
      Redisplays (.u8 .store n) (t :: ts) f ts (fun i => if i = n then some t else f i)
  | stores {n : Nat} {t d : Bytes} {ts : List Bytes} {f : Nat → Option Bytes} : DecimalOf n d →
      Redisplays (.plain .stores) (t :: (b!"uint64: " ++ d) :: ts) f ts (fun i => if i = n then some t else f i)
  /-- texts move with the values -/
  | rearranges {o : Op} {ts ts' : List Bytes} {f : Nat → Option Bytes} : Rearranges o ts ts' → o ≠ .plain .dup2 →
      (∀ n, o = .u8 .bury n → ts.length = 2 * n + 1) → (∀ n, o = .u8 .dig n → ts.length ≤ 256) → Redisplays o ts f ts' f
  /-- some results show how they were computed -/
  | sha256 {t : Bytes} {ts : List Bytes} {f : Nat → Option Bytes} :
      Redisplays (.plain .sha256) (t :: ts) f ((b!"bytes: " ++ called b!"sha256" [t]) :: ts) f
  | ed25519verify {t1 t2 t3 : Bytes} {ts : List Bytes} {f : Nat → Option Bytes} :
      Redisplays (.plain .ed25519verify) (t1 :: t2 :: t3 :: ts) f ((b!"uint64: " ++ called b!"ed25519verify" [t1, t2, t3]) :: ts) f
  | ecdsaVerify (c : Nat) {t1 t2 t3 t4 t5 : Bytes} {ts : List Bytes} {f : Nat → Option Bytes} :
      Redisplays (.field .ecdsaVerify c) (t1 :: t2 :: t3 :: t4 :: t5 :: ts) f
        ((b!"uint64: " ++ called b!"ecdsa_verify" [t1, t2, t3, t4, t5]) :: ts) f
  /-- calls change nothing -/
  | callsub (t : Bytes) {ts : List Bytes} {f : Nat → Option Bytes} : Redisplays (.branch .callsub t) ts f ts f
  | proto (a n : Nat) {ts : List Bytes} {f : Nat → Option Bytes} : Redisplays (.u8u8 .proto a n) ts f ts f
  /-- all other results show their types only -/
  | table {o : Op} {args rets : List StackType} {ts : List Bytes} {f : Nat → Option Bytes} : effect o = some (args, rets) →
      ¬ OwnRule o → ¬ Ignored o → Redisplays o ts f (rets.reverse.map typeName ++ ts.drop args.length) f

/-- `Claims fn t P`: who reads the text `t` of a value takes it that `P` is true of the value.  The text
of a byte string and of a hash can as well be the signature of a method. -/
inductive Claims (fn : Functions) : Bytes → (Val → Prop) → Prop
  | uint64 : Claims fn b!"uint64" fun x => ∃ n, x = .uint n
  | bytes : Claims fn b!"bytes" fun x => ∃ b, x = .bytes b
  | none : Claims fn b!"(none)" fun x => x = .uint 0
  | uint {n : Nat} {t : Bytes} : DecimalOf n t → Claims fn (b!"uint64: " ++ t) fun x => x = .uint n
  | bytesConst (b : Bytes) : Claims fn (b!"bytes: b64 " ++ base64 b) fun x =>
      x = .bytes b ∨ x = .bytes (fn.selector (b!"b64 " ++ base64 b))
  | sha256 {t : Bytes} {P : Val → Prop} : Claims fn t P → Claims fn (b!"bytes: sha256(" ++ t ++ b!")") fun x =>
      (∃ a, P (.bytes a) ∧ x = .bytes (fn.sha256 a)) ∨ x = .bytes (fn.selector (b!"sha256(" ++ t ++ b!")"))
  | loaded {t : Bytes} {P : Val → Prop} : Claims fn t P → Claims fn (b!"any: " ++ t) P

end Teal.Spec
