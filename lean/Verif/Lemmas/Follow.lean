import Verif.Lemmas.Progress
import Verif.Props.Vm
import Verif.Props.VmFlow
import Verif.Spec.Compile

/-!
# Following real runs
-/

namespace Teal
open Teal.Spec Teal.Props

/-- What an instruction does to the calls in progress. -/
theorem does_calls {fn : Functions} {o : Op} {r r' : Real} (h : Does fn o r r') :
    ((∃ t, o = .branch .callsub t) ∧ r'.calls.length = r.calls.length + 1) ∨
    (o = .plain .retsub ∧ r.calls.length = r'.calls.length + 1) ∨
    ((∀ t, o ≠ .branch .callsub t) ∧ o ≠ .plain .retsub ∧ r'.calls.length = r.calls.length) := by
  cases h with
  | callsub t => exact .inl ⟨⟨t, rfl⟩, rfl⟩
  | retsub hc => exact .inr (.inl ⟨rfl, by rw [hc]; rfl⟩)
  | retsubProto hc hl => exact .inr (.inl ⟨rfl, by rw [hc]; rfl⟩)
  | proto a n hc ha => exact .inr (.inr ⟨(by intro t h; cases h), (by intro h; cases h), by rw [hc]; rfl⟩)
  | constants hc => refine .inr (.inr ⟨?_, ?_, rfl⟩) <;> (intros; rintro rfl; cases hc)
  | rearranges hr => refine .inr (.inr ⟨?_, ?_, rfl⟩) <;> (intros; rintro rfl; cases hr)
  | frame hc ha =>
    generalize r.stack = rs at ha
    refine .inr (.inr ⟨?_, ?_, rfl⟩) <;> (intros; rintro rfl; cases ha)
  | table _ ho _ _ _ => refine .inr (.inr ⟨?_, ?_, rfl⟩) <;> (intros; rintro rfl; exact ho trivial)
  | _ => exact .inr (.inr ⟨(by intro t h; cases h), (by intro h; cases h), rfl⟩)

theorem strange_differs {r : Real} {s : List VmValue} {fs : List VmFrame} {o : Op} (h : ¬ Strange r o) (hl : s.length = r.stack.length)
    (hf : o = .plain .retsub → fs ≠ []) : ¬ Differs s fs r o := by
  intro hd
  cases hd with
  | ignored hi => exact h (.ignored hi)
  | dup2 => exact h .dup2
  | bury n hn => exact h (.bury n (by rw [← hl]; exact hn))
  | dig n hn => exact h (.dig n (by rw [← hl]; exact hn))
  | frame k i hc hi => exact h (.frame k i hc hi)
  | lost he => exact hf rfl he
  | leftOver hc hn => exact h (.leftOver hc hn)
  | stores _ _ => exact h .stores

/-- The frames of the machine are as many as the calls of the run, after an instruction. -/
theorem exec_calls {fn : Functions} {v : Vm} {o : Op} {b : VmBranch} {i : Nat} {c : Int} {m : Mach} {r r' : Real} (hi : b.line = some i)
    (h : v.executeOp o (v.mach b o c) = .ok () m) (ho : Does fn o r r') (hl : b.frames.length = r.calls.length) :
    m.br.frames.length = r'.calls.length := by
  have hg := exec_goes hi h
  rcases does_calls ho with ⟨⟨t, rfl⟩, h1⟩ | ⟨rfl, h1⟩ | ⟨h0, h1, h2⟩
  · cases hg with
    | next hn _ _ _ _ => exact (hn (.callsub t)).elim
    | halt hh _ _ => cases hh
    | lost t' ho _ _ _ hc =>
      rcases ho with ho | ho
      · cases ho
      · obtain ⟨f, hf, -⟩ := hc ho
        rw [hf, List.length_cons]; omega
    | jump t' j ho _ _ _ => cases ho
    | call t' j f _ _ _ hf _ => rw [hf, List.length_cons]; omega
    | ret f fs ho _ _ _ => cases ho
    | retNone ho _ _ _ => cases ho
  · cases hg with
    | next hn _ _ _ _ => exact (hn .retsub).elim
    | halt hh _ _ => cases hh
    | lost t' ho _ _ _ hc => rcases ho with ho | ho <;> cases ho
    | jump t' j ho _ _ _ => cases ho
    | call t' j f ho _ _ _ _ => cases ho
    | ret f fs _ hf _ hf' => rw [hf, List.length_cons] at hl; rw [hf']; omega
    | retNone _ hf _ _ => rw [hf, List.length_nil] at hl; omega
  · cases hg with
    | next hn _ _ _ hf => omega
    | halt hh _ hf => rw [hf]; omega
    | lost t' ho _ _ hb hc =>
      rcases ho with ho | ho
      · rw [hb ho]; omega
      · exact (h0 _ ho).elim
    | jump t' j ho _ _ hf => rw [hf]; omega
    | call t' j f ho _ _ hf _ => exact (h0 _ ho).elim
    | ret f fs ho _ _ _ => exact (h1 ho).elim
    | retNone ho _ _ _ => exact (h1 ho).elim

/-- The first branch has a frame for each call. -/
theorem follows_frames {fn : Functions} {l : List Op} {version : Nat} {v : Vm} {k : Nat} {r : Real} (h : Follows fn l version v k r)
    (hk : k = 0) {b : VmBranch} (hb : v.branches[k]? = some b) : b.frames.length = r.calls.length := by
  induction h generalizing b with
  | new =>
    have := hb
    obtain ⟨j, nm, -, ⟨-, h⟩ | ⟨-, h⟩⟩ := new_cases l version <;> rw [h] at this <;> (cases this; rfl)
  | @step v w k r r' b0 o h0 hb0 hs he hx hd ho ih =>
    have hv := session_inv (follows_session h0)
    obtain ⟨b2, i, c, m, ha, hok, hf⟩ := step_executed hv hs he hx
    have e := ha.old
    rw [hb0] at e; cases e
    have h1 := exec_calls ha.line hok ho (ih hk hb0)
    cases finished_origin hv hf hb with
    | other _ hne _ _ => exact (hne rfl).elim
    | self _ hret => rw [hret.same]; dsimp only; rw [skipNops_same]; exact h1
    | fork x hle _ _ => have := (List.getElem?_eq_some_iff.1 hb0).1; omega
  | fork h0 hb0 _ _ _ _ _ hle _ _ =>
    have := (List.getElem?_eq_some_iff.1 hb0).1
    omega
  | @other v w k r h0 hs he hx hw ih =>
    obtain ⟨b0, e0, -⟩ := follows_sound h0
    obtain ⟨b', hb', -, h2, -⟩ := step_not_executed (session_inv (follows_session h0)) hs he e0 hx
    rw [hb] at hb'; cases hb'
    rw [h2]; exact ih hk e0
  | switch id h0 ih => rw [(switch_same _ _).1] at hb; exact ih hk hb
  | breakpoints lns h0 hs ih =>
    unfold Vm.setBreakpoints at hs
    cases hc : Vm.checkBreakpoints _ lns with
    | none => rw [hc] at hs; cases hs
    | some bps => rw [hc] at hs; cases hs; exact ih hk hb

/-- What the machine charges is at most what the reference charges. -/
theorem lengths_of {fn : Functions} (hsel : ∀ s, (fn.selector s).length = 4) {s : VmSrc} {b : Bytes} (h : SourceHolds fn s (.bytes b)) :
    s.lengths = [] ∨ s.lengths = [b.length] := by
  induction s with
  | none => exact .inl rfl
  | uint n => cases h
  | sig s => cases h; right; rw [hsel]; rfl
  | bytes b' => cases h; exact .inr rfl
  | val t s ih => exact ih h.2
  | sha256 | ed25519verify | ecdsaVerify => exact .inl rfl

theorem charge_fixed {version : Nat} {o : Op} {r : Real} {n : Nat} (h : fixedCost version o = some n) : charge version o r = n := by
  unfold charge; rw [h]

theorem charge_one {version : Nat} {o : Op} {r : Real} (h : fixedCost version o = none) (h' : lengthCost o = none) : charge version o r = 1 := by
  unfold charge; rw [h, h']

theorem charge_le {fn : Functions} (hsel : ∀ s, (fn.selector s).length = 4) {version : Nat} {b : VmBranch} {o : Op} {c : Int} {r r' : Real}
    (hc : CostIs version b o c) (hj : ∀ f, o ≠ .field .jsonRef f) (hst : StackHolds fn b.stack r.stack) (ho : Does fn o r r') :
    c ≤ charge version o r := by
  by_cases h64 : ∃ f, o = .field .base64Decode f
  · obtain ⟨f, rfl⟩ := h64
    obtain ⟨xs, s, h1, h2⟩ := does_operands ho rfl
    obtain ⟨x, rfl⟩ : ∃ x, xs = [x] := by
      have := h2.1
      match xs, this with
      | [x], _ => exact ⟨x, rfl⟩
    obtain ⟨a, rfl⟩ : ∃ a, x = .bytes a := h2.2 0 .bytes x rfl rfl
    rw [h1] at hst
    obtain ⟨v1, vs1, e1, g1, -⟩ := hst.cons_inv
    have hch : charge version (.field .base64Decode f) r = 1 + ceilDiv a.length 16 := by
      unfold charge; rw [h1]; rfl
    rw [hch]
    have hcost : Op.costs version b (.field .base64Decode f) = .ok (v1.src.lengths.map base64Cost) := by
      show lengthCosts base64Cost b = _
      unfold lengthCosts; rw [e1]
    unfold CostIs at hc
    rw [hcost] at hc
    rcases lengths_of hsel g1.2 with h | h <;> rw [h] at hc
    · rcases hc with ⟨-, rfl⟩ | hc
      · unfold ceilDiv; omega
      · cases hc
    · rcases hc with ⟨hc, -⟩ | hc
      · cases hc
      · cases hc
        unfold base64Cost ceilDiv
        split <;> omega
  · have := costIs_spec hc hj
    cases this with
    | fixed n h => rw [charge_fixed h]; exact Int.le_refl _
    | one h h' => rw [charge_one h h']; exact Int.le_refl _
    | length d f n v h =>
      exfalso
      unfold lengthCost at h
      split at h
      · exact h64 ⟨_, rfl⟩
      · exact hj _ rfl
      · cases h

/-- A cost can be determined for what the real run executes. -/
theorem cost_exists {fn : Functions} {version : Nat} {b : VmBranch} {o : Op} {r r' : Real} (hr : OperandInRange o)
    (hst : StackHolds fn b.stack r.stack) (hn : ∀ x ∈ b.stack, x.t ≠ .none) (ho : Does fn o r r') : ∃ c, CostIs version b o c := by
  cases hc : o.costs version b with
  | error e =>
    exfalso
    cases he : effect o with
    | none =>
      cases o with
      | field k f => cases k <;> cases he
      | _ => cases hc
    | some e =>
      obtain ⟨args, rets⟩ := e
      obtain ⟨xs, s, h1, h2⟩ := does_operands ho he
      rw [h1] at hst
      exact costs_error he hr hc (holds_fits hst hn h2)
  | ok cs =>
    rcases costs_cases hc with rfl | ⟨c, rfl, -⟩
    · exact ⟨1, .inl ⟨hc, rfl⟩⟩
    · exact ⟨c, .inr hc⟩

/-- In a state that a real run follows, unless its instruction is strange, the machine can execute it. -/
theorem follows_exec {fn : Functions} {l : List Op} {version : Nat} {v : Vm} {k : Nat} {r r' : Real} {b : VmBranch} {o : Op}
    (h : Follows fn l version v k r) (hb : v.branches[k]? = some b) (hr : OperandInRange o) (hs : ¬ Strange r o)
    (hf : OnFrame o → b.frames = [] → r.calls = []) (ho : Does fn o r r') :
    (∃ c, CostIs v.version b o c) ∧ ∀ c, ∃ m, v.executeOp o (v.mach b o c) = .ok () m := by
  obtain ⟨b0, e0, h1, h2, h3, h4⟩ := follows_sound h
  rw [hb] at e0; cases e0
  have hses := follows_session h
  have hn : ∀ x ∈ b.stack, x.t ≠ .none := fun x hx => ((session_proper hses).1 k b hb x hx).2
  refine ⟨cost_exists hr h1 hn ho, fun c => ?_⟩
  exact exec_progress (m := v.mach b o c) ⟨h1, h2, h3⟩ hn (session_inv hses).scratch hr hs hf (doesAll_protos h4 (by intro c hc; cases hc)) ho

/-- One step of a real run, followed. -/
structure Went (fn : Functions) (l : List Op) (version : Nat) (v w : Vm) (k i : Nat) (b : VmBranch) (o : Op) (r r' : Real) (c : Int)
    (m : Mach) : Prop where
  inv : Inv v
  listing : v.listing = l
  get : v.branches[k]? = some b
  line : b.line = some i
  cost : c ≤ charge version o r
  exec : v.executeOp o (v.mach b o c) = .ok () m
  fin : Finished v k m w
  self : Follows fn l version w k r'
  fork : ∀ k', v.branches.length ≤ k' → k' < w.branches.length → Follows fn l version w k' r'

theorem follow_went {fn : Functions} (hsel : ∀ s, (fn.selector s).length = 4) {l : List Op} {version : Nat} {v : Vm} {k : Nat} {r r' : Real}
    {b : VmBranch} {i : Nat} {o : Op} (h : Follows fn l version v k r) (hb : v.branches[k]? = some b) (hi : b.line = some i)
    (ha : At l i o) (hr : OperandInRange o) (hs : ¬ Strange r o) (hf : b.frames.length = r.calls.length)
    (ho : Does fn o r r') (hbud : (charge version o r : Int) ≤ b.budget) :
    ∃ v' w c m, Went fn l version v' w k i b o r r' c m := by
  have hses := follows_session h
  have hsw := C41_switch hses hb
  have h1 : Follows fn l version (v.switch b.id) k r := .switch _ h
  obtain ⟨v1, hv1⟩ : ∃ v1, v1 = v.switch b.id := ⟨_, rfl⟩
  rw [← hv1] at h1 hsw
  have hses1 := follows_session h1
  have hinv := session_inv hses1
  obtain ⟨hl, hver⟩ := session_listing hses1
  have hb1 : v1.branches[k]? = some b := by rw [hsw]; exact hb
  have hcur : v1.branch = some k := by rw [hsw]
  have hacts : Acts v1 k b i o := acts_of_current hinv hcur hb1 hi (by rw [hl]; exact ha)
  obtain ⟨⟨c, hc⟩, hx⟩ := follows_exec h1 hb1 hr hs
    (fun _ h0 => by rw [h0] at hf; exact List.length_eq_zero_iff.1 hf.symm) ho
  obtain ⟨m, hm⟩ := hx c
  obtain ⟨b0, e0, hst, -⟩ := follows_sound h1
  rw [hb1] at e0; cases e0
  have hle : c ≤ charge version o r := by
    rw [hver] at hc
    exact charge_le hsel hc (fun f h => by subst h; exact hs (.jsonRef f)) hst ho
  have hspec := step_spec hinv
  obtain ⟨-, huniq⟩ := selected_acts hinv (k := k) (b := b) (i := i) (o := o) ⟨hcur, hb1, hi, by rw [hl]; exact ha⟩
  have hstep : v1.step = some (v1.finish k m) := by
    generalize hr : v1.step = res at hspec
    cases hspec with
    | idle h0 => rw [hacts.sel] at h0; cases h0
    | @costErr k' b0 i' o' e ha he =>
      obtain ⟨rfl, rfl, rfl, rfl⟩ := huniq ha
      rcases hc with ⟨hc, -⟩ | hc <;> rw [hc] at he <;> cases he
    | @poor k' b0 i' o' c' ha hc' hlt =>
      obtain ⟨rfl, rfl, rfl, rfl⟩ := huniq ha
      obtain rfl := hc.unique hc'
      omega
    | @hang k' b0 i' o' c' ha hc' _ hx' =>
      obtain ⟨rfl, rfl, rfl, rfl⟩ := huniq ha
      obtain rfl := hc.unique hc'
      rw [hm] at hx'; cases hx'
    | @fail k' b0 i' o' c' e m' ha hc' _ hx' =>
      obtain ⟨rfl, rfl, rfl, rfl⟩ := huniq ha
      obtain rfl := hc.unique hc'
      rw [hm] at hx'; cases hx'
    | @done k' b0 i' o' c' m' ha hc' _ hx' =>
      obtain ⟨rfl, rfl, rfl, rfl⟩ := huniq ha
      obtain rfl := hc.unique hc'
      rw [hm] at hx'; cases hx'
      rfl
  have hfin := hacts.finished hinv hm
  have herr := hfin.error
  have hlen := finished_length hinv hfin
  have hk : k < v1.branches.length := (List.getElem?_eq_some_iff.1 hb1).1
  obtain ⟨b', hb'⟩ : ∃ b', (v1.finish k m).branches[k]? = some b' := ⟨_, List.getElem?_eq_getElem (by omega)⟩
  have hexec : Executed v1 (v1.finish k m) k o := by
    refine ⟨b, b', hb1, hb', ?_⟩
    cases finished_origin hinv hfin hb' with
    | other _ hne _ _ => exact (hne rfl).elim
    | self _ hret => exact acted_trace hm hret
    | fork x hle _ _ => omega
  have hdiff : ¬ Differs b.stack b.frames r o := by
    refine strange_differs hs hst.1 ?_
    rintro rfl h0
    rw [h0] at hf
    rcases does_calls ho with ⟨⟨t, h⟩, -⟩ | ⟨-, h⟩ | ⟨-, h, -⟩
    · cases h
    · rw [← hf] at h; cases h
    · exact h rfl
  exact ⟨v1, v1.finish k m, c, m, hinv, hl, hb1, hi, hle, hm, hfin,
    .step h1 hb1 hstep herr hexec hdiff ho, fun k' h2 h3 => .fork h1 hb1 hstep herr hexec hdiff ho h2 h3⟩

theorem reaches_at {l : List Op} {i : Nat} {o : Op} {line : Option Nat} (h : Reaches l i line) (ha : At l i o) (hn : ¬ NoOp o) : line = some i := by
  rcases h with ⟨x, rfl, h1, -, h3⟩ | ⟨h1, -⟩
  · rcases Nat.lt_or_ge i x with hlt | hge
    · obtain ⟨o', ha', hn'⟩ := h3 i (Nat.le_refl _) hlt
      have : some o = some o' := ha.symm.trans ha'
      cases this; exact (hn hn').elim
    · have : x = i := by omega
      rw [this]
  · exact (hn (h1 i o (Nat.le_refl _) ha)).elim

theorem reaches_pass {l : List Op} {i : Nat} {o : Op} {line : Option Nat} (h : Reaches l i line) (ha : At l i o) (hn : NoOp o) : Reaches l (i + 1) line := by
  rcases h with ⟨x, rfl, h1, ⟨o', h2, h2'⟩, h3⟩ | ⟨h1, h2⟩
  · have hne : i ≠ x := by
      rintro rfl
      have : some o = some o' := ha.symm.trans h2
      cases this; exact h2' hn
    exact .inl ⟨x, rfl, by omega, ⟨o', h2, h2'⟩, fun y hy hy' => h3 y (by omega) hy'⟩
  · exact .inr ⟨fun y o hy h => h1 y o (by omega) h, h2⟩

theorem exec_forks_length {v : Vm} {o : Op} {b : VmBranch} {c : Int} {m : Mach} {ts : List Bytes}
    (hx : v.executeOp o (v.mach b o c) = .ok () m) (hf : Forks o ts) : m.forks.length = ts.length := by
  have hs := executeOp_spec v o (v.mach b o c)
  rw [hx] at hs
  generalize hr : (XRes.ok () m) = r at hs
  have hts := forks_iff.1 hf
  cases hs with
  | fork ts' m1 ht hc =>
    cases hr
    rw [hts] at ht; cases ht
    obtain ⟨s, sc, hl, rfl⟩ := hc
    simp [Vm.mach, forkBranches_length]
  | straight m1 _ _ h3 hc => rw [hts] at h3; cases h3
  | hang => cases hr
  | panic => cases hr
  | exit m1 h1 hc => cases h1 <;> cases hts
  | proto a r f fs ho => subst ho; cases hts
  | jump t ho => subst ho; cases hts
  | call t ho => subst ho; cases hts
  | ret f fs m1 ho => subst ho; cases hts
  | retNone ho => subst ho; cases hts

theorem forks_refers {o : Op} {ts : List Bytes} {t : Bytes} (h : Forks o ts) (hr : Refers o t) : t ∈ ts := by
  cases h <;> cases hr <;> first | assumption | simp

theorem refers_cases {o : Op} {t : Bytes} (h : Refers o t) : (∃ ts, Forks o ts) ∨ o = .branch .b t ∨ o = .branch .callsub t := by
  cases h with
  | branch k =>
    cases k
    case bnz => exact .inl ⟨_, .bnz _⟩
    case bz => exact .inl ⟨_, .bz _⟩
    case b => exact .inr (.inl rfl)
    case callsub => exact .inr (.inr rfl)
  | switch ts _ => exact .inl ⟨_, .switch _⟩
  | match_ ts _ => exact .inl ⟨_, .match_ _⟩

/-- What following a run keeps. -/
structure Along (fn : Functions) (l : List Op) (version : Nat) (tr : List Op) (c : Option (Nat × List Nat)) (n : Nat) (r : Real)
    (v : Vm) (k : Nat) (b : VmBranch) : Prop where
  follows : Follows fn l version v k r
  get : v.branches[k]? = some b
  trace : b.trace = tr
  budget : (700 : Int) - n ≤ b.budget
  place : ∀ i rs, c = some (i, rs) → Reaches l i b.line ∧ b.backs = rs ∧ r.calls.length = rs.length
  ended : c = none → b.line = none

theorem run_along {fn : Functions} (hsel : ∀ s, (fn.selector s).length = 4) {l : List Op} {version : Nat} (hu : UniqueLabels l)
    (hops : ∀ o ∈ l, OperandInRange o) {tr : List Op} {c : Option (Nat × List Nat)} {n : Nat} {r : Real}
    (h : RunsTo fn l version Followable tr c n r) : n ≤ 700 → ∃ v k b, Along fn l version tr c n r v k b := by
  induction h with
  | start =>
    intro _
    obtain ⟨j, nm, hnb, ⟨hi, h⟩ | ⟨hi, h⟩⟩ := new_cases l version
    · refine ⟨_, 0, _, .new, by rw [h]; rfl, rfl, by exact Int.le_refl _, ?_, by intro h; cases h⟩
      intro i rs hc; cases hc
      refine ⟨.inl ⟨j, rfl, Nat.zero_le _, instrAt_iff.1 hi, ?_⟩, rfl, rfl⟩
      intro y _ hy
      obtain ⟨o, ho, hn⟩ := hnb y (Nat.zero_le _) hy
      exact ⟨o, ho, (isNop_iff _).1 hn⟩
    · refine ⟨_, 0, _, .new, by rw [h]; rfl, rfl, by exact Int.le_refl _, ?_, by intro h; cases h⟩
      intro i rs hc; cases hc
      refine ⟨.inr ⟨nopsBetween_none hnb hi, fun x hx => by cases hx⟩, rfl, rfl⟩
  | @skip tr i rs n r o _ ha hn ih =>
    intro hle
    obtain ⟨v, k, b, h⟩ := ih hle
    refine ⟨v, k, b, h.follows, h.get, h.trace, h.budget, ?_, by intro h; cases h⟩
    intro j rs' hc; cases hc
    obtain ⟨h1, h2⟩ := h.place i rs rfl
    exact ⟨reaches_pass h1 ha hn, h2⟩
  | @exec tr i rs n r r' o c _ ha hn ho hstep hP ih =>
    intro hle
    obtain ⟨v, k, b, h⟩ := ih (by omega)
    obtain ⟨h1, h2, h3⟩ := h.place i rs rfl
    have hi := reaches_at h1 ha hn
    have hfr : b.frames.length = rs.length := by rw [← h2]; unfold VmBranch.backs; rw [List.length_map]
    have hbud := h.budget
    obtain ⟨v1, w, cost, m, hw⟩ := follow_went hsel h.follows h.get hi ha (hops o (List.mem_of_getElem? ha)) hP.1 (by omega) ho (by omega)
    have hok := exec_ok rfl hw.exec
    have hgo := exec_goes hi hw.exec
    rw [hw.listing] at hgo
    have hcalls := exec_calls hi hw.exec ho (by omega)
    have hcost := hw.cost
    have hlen := finished_length hw.inv hw.fin
    have hk : k < v1.branches.length := (List.getElem?_eq_some_iff.1 hw.get).1
    -- the branch itself, if it goes there
    have viaSelf : (∀ i' rs', c = (i', rs') → m.br.line = some i' ∧ m.br.backs = rs') → ∃ v k b, Along fn l version (tr ++ [o]) (some c) (n + charge version o r) r' v k b := by
      intro hc
      obtain ⟨b', hb'⟩ : ∃ b', w.branches[k]? = some b' := ⟨_, List.getElem?_eq_getElem (by omega)⟩
      cases finished_origin hw.inv hw.fin hb' with
      | other _ hne _ _ => exact (hne rfl).elim
      | fork x hle _ _ => omega
      | self _ hret =>
        obtain ⟨i', rs'⟩ := c
        obtain ⟨g1, g2⟩ := hc i' rs' rfl
        have hbud' : b'.budget = b.budget - cost := by
          rw [hret.same]; dsimp only; rw [skipNops_same]; exact hok.budget
        have hfr' : b'.frames = m.br.frames := by rw [hret.same]; dsimp only; rw [skipNops_same]
        refine ⟨w, k, b', hw.self, hb', ?_, by rw [hbud']; push_cast; omega, ?_, by intro h; cases h⟩
        · rw [acted_trace hw.exec hret, h.trace]
        · intro j rs2 hc2; cases hc2
          refine ⟨?_, ?_, ?_⟩
          · have := reaches_skip g1 hret
            rw [hw.listing] at this; exact this
          · unfold VmBranch.backs; rw [hfr']; exact g2
          · rw [← hcalls, ← g2]; unfold VmBranch.backs; rw [List.length_map]
    cases hgo with
    | next hnf hline hbk _ _ =>
      by_cases hfk : ∃ ts, Forks o ts ∧ c ≠ (i + 1, rs)
      · obtain ⟨ts, hf, hne⟩ := hfk
        have hrs : rs = [] := by
          rcases hP.2 ts hf with h | h
          · cases h; exact (hne rfl).elim
          · exact h
        subst hrs
        -- one of the new branches
        cases hstep with
        | next _ _ => exact (hne rfl).elim
        | call ha' _ =>
          have : some o = some _ := ha.symm.trans ha'
          cases this; cases hf
        | @jump _ o' t j _ ha' href _ hdef =>
          have : some o = some o' := ha.symm.trans ha'
          cases this
          obtain ⟨d, hd⟩ : ∃ d, ts[d]? = some t := List.getElem?_of_mem (forks_refers hf href)
          have hfl := exec_forks_length hw.exec hf
          have hdl : d < m.forks.length := by rw [hfl]; exact (List.getElem?_eq_some_iff.1 hd).1
          obtain ⟨x, hx⟩ : ∃ x, m.forks[d]? = some x := ⟨_, List.getElem?_eq_getElem hdl⟩
          obtain ⟨t', ts', e1, e2, e3⟩ := hok.forks d x hx
          rw [forks_iff.1 hf] at e1; cases e1
          rw [hd] at e2; cases e2
          obtain ⟨b', hb'⟩ : ∃ b', w.branches[v1.branches.length + d]? = some b' := ⟨_, List.getElem?_eq_getElem (by omega)⟩
          cases finished_origin hw.inv hw.fin hb' with
          | other _ _ hg _ => have := (List.getElem?_eq_some_iff.1 hg).1; omega
          | self hk' _ => omega
          | fork x' _ hx' hret =>
            rw [Nat.add_sub_cancel_left, hx] at hx'; cases hx'
            have hfind : findLabel v1.listing t = some j := by
              rw [hw.listing]
              cases hfl : findLabel l t with
              | none => exact (findLabel_none hfl j hdef).elim
              | some j' => rw [hu t j' j (findLabel_some hfl).1 hdef]
            rw [hfind] at e3
            subst e3
            have hbud' : b'.budget = b.budget - cost := by
              rw [hret.same]; dsimp only; rw [skipNops_same]; rfl
            have hfr' : b'.frames = [] := by rw [hret.same]; dsimp only; rw [skipNops_same]
            have htr' : b'.trace = b.trace ++ [o] := by rw [hret.same]; dsimp only; rw [skipNops_same]; rfl
            refine ⟨w, _, b', hw.fork _ (Nat.le_add_right _ _) (by omega), hb', by rw [htr', h.trace], by rw [hbud']; push_cast; omega, ?_, by intro h; cases h⟩
            intro j' rs2 hc2; cases hc2
            refine ⟨?_, by unfold VmBranch.backs; rw [hfr']; rfl, ?_⟩
            · have := reaches_skip (i := j) rfl hret
              rw [hw.listing] at this; exact this
            · rcases does_calls ho with ⟨⟨t, rfl⟩, -⟩ | ⟨rfl, -⟩ | ⟨-, -, h4⟩
              · cases hf
              · cases hf
              · omega
      · have hc : c = (i + 1, rs) := by
          cases hstep with
          | next _ _ => rfl
          | @jump _ o' t j _ ha' href hcs hdef =>
            have : some o = some o' := ha.symm.trans ha'
            cases this
            rcases refers_cases href with ⟨ts, hf⟩ | rfl | rfl
            · exact Classical.byContradiction fun hne => hfk ⟨ts, hf, hne⟩
            · exact (hnf (.b _)).elim
            · exact (hnf (.callsub _)).elim
          | call ha' _ =>
            have : some o = some _ := ha.symm.trans ha'
            cases this; exact (hnf (.callsub _)).elim
          | ret ha' =>
            have : some o = some _ := ha.symm.trans ha'
            cases this; exact (hnf .retsub).elim
        exact viaSelf (by rw [hc]; intro i' rs' he; cases he; exact ⟨hline, hbk.trans h2⟩)
    | halt hh _ _ =>
      exfalso
      cases hstep with
      | @next _ o' _ ha' hnf =>
        have : some o = some o' := ha.symm.trans ha'
        cases this; exact hnf (.halts _ hh)
      | @jump _ o' t j _ ha' href _ _ =>
        have : some o = some o' := ha.symm.trans ha'
        cases this; cases hh <;> cases href
      | call ha' _ =>
        have : some o = some _ := ha.symm.trans ha'
        cases this; cases hh
      | ret ha' =>
        have : some o = some _ := ha.symm.trans ha'
        cases this; cases hh
    | lost t hob hund _ _ _ =>
      exfalso
      rcases hob with rfl | rfl
      · cases hstep with
        | @next _ o' _ ha' hnf =>
          have : some _ = some o' := ha.symm.trans ha'
          cases this; exact hnf (.b _)
        | @jump _ o' t j _ ha' href _ hdef =>
          have : some _ = some o' := ha.symm.trans ha'
          cases this; cases href; exact hund _ hdef
        | call ha' _ => have : some _ = some _ := ha.symm.trans ha'; cases this
        | ret ha' => have : some _ = some _ := ha.symm.trans ha'; cases this
      · cases hstep with
        | @next _ o' _ ha' hnf =>
          have : some _ = some o' := ha.symm.trans ha'
          cases this; exact hnf (.callsub _)
        | @jump _ o' t j _ ha' href hcs hdef =>
          have : some _ = some o' := ha.symm.trans ha'
          cases this; cases href; exact hund _ hdef
        | call ha' hdef =>
          have : some _ = some _ := ha.symm.trans ha'
          cases this; exact hund _ hdef
        | ret ha' => have : some _ = some _ := ha.symm.trans ha'; cases this
    | jump t j hob hdef hline hfr2 =>
      subst hob
      refine viaSelf ?_
      cases hstep with
      | @next _ o' _ ha' hnf =>
        have : some _ = some o' := ha.symm.trans ha'
        cases this; exact (hnf (.b _)).elim
      | @jump _ o' t j' _ ha' href _ hdef' =>
        have : some _ = some o' := ha.symm.trans ha'
        cases this; cases href
        intro i' rs' he; cases he
        refine ⟨by rw [hline, hu _ _ _ hdef.1 hdef'], ?_⟩
        unfold VmBranch.backs at h2 ⊢; rw [hfr2]; exact h2
      | call ha' _ => have : some _ = some _ := ha.symm.trans ha'; cases this
      | ret ha' => have : some _ = some _ := ha.symm.trans ha'; cases this
    | call t j f hob hdef hline hfr2 hret =>
      subst hob
      refine viaSelf ?_
      cases hstep with
      | @next _ o' _ ha' hnf =>
        have : some _ = some o' := ha.symm.trans ha'
        cases this; exact (hnf (.callsub _)).elim
      | @jump _ o' t j' _ ha' href hcs hdef' =>
        have : some _ = some o' := ha.symm.trans ha'
        cases this; cases href; exact (hcs rfl).elim
      | call ha' hdef' =>
        have : some _ = some _ := ha.symm.trans ha'
        cases this
        intro i' rs' he; cases he
        refine ⟨by rw [hline, hu _ _ _ hdef.1 hdef'], ?_⟩
        unfold VmBranch.backs at h2 ⊢; rw [hfr2, List.map_cons, h2]
        unfold VmFrame.back; rw [hret]
      | ret ha' => have : some _ = some _ := ha.symm.trans ha'; cases this
    | ret f fs hob hbf hline hfr2 =>
      subst hob
      refine viaSelf ?_
      cases hstep with
      | @next _ o' _ ha' hnf =>
        have : some _ = some o' := ha.symm.trans ha'
        cases this; exact (hnf .retsub).elim
      | @jump _ o' t j' _ ha' href hcs hdef' =>
        have : some _ = some o' := ha.symm.trans ha'
        cases this; cases href
      | call ha' hdef' => have : some _ = some _ := ha.symm.trans ha'; cases this
      | ret ha' =>
        intro i' rs' he; cases he
        unfold VmBranch.backs at h2 ⊢
        rw [hbf, List.map_cons] at h2
        injection h2 with h21 h22
        exact ⟨by rw [hline, h21], by rw [hfr2]; exact h22⟩
    | retNone hob hbf _ _ =>
      subst hob
      rw [hbf] at hfr
      cases hstep with
      | @next _ o' _ ha' hnf =>
        have : some _ = some o' := ha.symm.trans ha'
        cases this; exact (hnf .retsub).elim
      | @jump _ o' t j' _ ha' href hcs hdef' =>
        have : some _ = some o' := ha.symm.trans ha'
        cases this; cases href
      | call ha' hdef' => have : some _ = some _ := ha.symm.trans ha'; cases this
      | ret ha' => cases hfr
  | @halt tr i rs n r r' o _ ha hh ho hP ih =>
    intro hle
    obtain ⟨v, k, b, h⟩ := ih (by omega)
    obtain ⟨h1, h2, h3⟩ := h.place i rs rfl
    have hi := reaches_at h1 ha (by cases hh <;> (intro h; cases h))
    have hfr : b.frames.length = rs.length := by rw [← h2]; unfold VmBranch.backs; rw [List.length_map]
    have hbud := h.budget
    obtain ⟨v1, w, cost, m, hw⟩ := follow_went hsel h.follows h.get hi ha (hops o (List.mem_of_getElem? ha)) hP.1 (by omega) ho (by omega)
    have hok := exec_ok rfl hw.exec
    have hgo := exec_goes hi hw.exec
    have hcost := hw.cost
    have hlen := finished_length hw.inv hw.fin
    have hk : k < v1.branches.length := (List.getElem?_eq_some_iff.1 hw.get).1
    have hline : m.br.line = none := by
      cases hgo with
      | next hnf _ _ _ _ => exact (hnf (.halts _ hh)).elim
      | halt _ hl _ => exact hl
      | lost t hob _ _ _ _ => rcases hob with rfl | rfl <;> cases hh
      | jump t j hob _ _ _ => subst hob; cases hh
      | call t j f hob _ _ _ _ => subst hob; cases hh
      | ret f fs hob _ _ _ => subst hob; cases hh
      | retNone hob _ _ _ => subst hob; cases hh
    obtain ⟨b', hb'⟩ : ∃ b', w.branches[k]? = some b' := ⟨_, List.getElem?_eq_getElem (by omega)⟩
    cases finished_origin hw.inv hw.fin hb' with
    | other _ hne _ _ => exact (hne rfl).elim
    | fork x hle _ _ => omega
    | self _ hret =>
      have hbud' : b'.budget = b.budget - cost := by
        rw [hret.same]; dsimp only; rw [skipNops_same]; exact hok.budget
      refine ⟨w, k, b', hw.self, hb', by rw [acted_trace hw.exec hret, h.trace], by rw [hbud']; push_cast; omega,
        (by intro i rs h; cases h), fun _ => line_skip_none hline hret⟩

/-! ## How branches come about -/

/-- How a branch came about, without an instruction failing. -/
inductive Made (l : List Op) : VmBranch → Prop
  | new {b : VmBranch} : b.trace = [] → Made l b
  | act {v : Vm} {b0 b : VmBranch} {i : Nat} {o : Op} {c : Int} {m : Mach} : Made l b0 → b0.line = some i → At l i o → v.listing = l →
      v.executeOp o (v.mach b0 o c) = .ok () m → b.trace = b0.trace ++ [o] → b.stack = m.br.stack → b.frames = m.br.frames →
      (∀ x, b.line = some x → ∃ j, m.br.line = some j ∧ Reaches l j (some x)) → Made l b
  | fork {v : Vm} {b0 b : VmBranch} {i : Nat} {o : Op} {c : Int} {m : Mach} : Made l b0 → b0.line = some i → At l i o → v.listing = l →
      v.executeOp o (v.mach b0 o c) = .ok () m → b.trace = b0.trace ++ [o] → b.stack = m.br.stack → b.frames = [] → (∃ ts, Forks o ts) → Made l b

theorem Made.stay {l : List Op} {b b' : VmBranch} (h : Made l b) (hs : b' = { b with line := b'.line, name := b'.name })
    (hl : b'.line = b.line ∨ b'.line = none) : Made l b' := by
  have ht : b'.trace = b.trace := by rw [hs]
  have hst : b'.stack = b.stack := by rw [hs]
  have hf : b'.frames = b.frames := by rw [hs]
  cases h with
  | new h => exact .new (ht.trans h)
  | act h0 h1 h2 h3 h4 h5 h6 h7 h8 =>
    refine .act h0 h1 h2 h3 h4 (ht.trans h5) (hst.trans h6) (hf.trans h7) fun x hx => ?_
    rcases hl with hl | hl
    · exact h8 x (by rw [← hl]; exact hx)
    · rw [hl] at hx; cases hx
  | fork h0 h1 h2 h3 h4 h5 h6 h7 h8 => exact .fork h0 h1 h2 h3 h4 (ht.trans h5) (hst.trans h6) (hf.trans h7) h8

theorem clean_made {l : List Op} {version : Nat} {v : Vm} (h : Clean l version v) {k : Nat} {b : VmBranch} (hb : v.branches[k]? = some b) :
    Made l b := by
  refine clean_branches (P := fun _ b => Made l b) ?_ ?_ h k b hb
  · intro j b hb
    refine .new ?_
    obtain ⟨y, nm, -, ⟨-, he⟩ | ⟨-, he⟩⟩ := new_cases l version <;> rw [he] at hb <;>
      (have := List.mem_of_getElem? hb; simp at this; subst this; rfl)
  · intro v w hv hl hp hstep herr j b hb
    have ofStart : v.start.branches[j]? = some b → Made l b := by
      intro h
      obtain ⟨b0, h1, h2⟩ := start_origin hv h
      exact (hp j b0 h1).stay h2.same h2.line
    have hs := step_spec hv
    rw [hstep] at hs
    generalize hr : some w = r at hs
    cases hs with
    | idle _ => cases hr; exact ofStart hb
    | costErr _ _ => cases hr; cases herr
    | @poor k b0 i o c ha _ _ =>
      cases hr
      rcases getElem?_set_cases hb with ⟨rfl, rfl⟩ | ⟨-, h⟩
      · exact (hp _ _ ha.old).stay rfl (.inr rfl)
      · exact ofStart h
    | hang => cases hr
    | fail _ _ _ _ => cases hr; cases herr
    | @done k b0 i o c m ha hc hle hx =>
      cases hr
      have hf := ha.finished hv hx
      have he := exec_ok rfl hx
      have hop : At l i o := by rw [← hl]; exact ha.op
      cases finished_origin hv hf hb with
      | other b1 hne h1 h2 => exact (hp _ _ h1).stay h2.same h2.line
      | self h1 h2 =>
        subst h1
        refine .act (hp _ _ ha.old) ha.line hop hl hx (acted_trace hx h2) ?_ ?_ ?_
        · rw [h2.same]; dsimp only; rw [skipNops_same]
        · rw [h2.same]; dsimp only; rw [skipNops_same]
        · intro x hx'
          cases hml : m.br.line with
          | none => rw [line_skip_none hml h2] at hx'; cases hx'
          | some j =>
            have := reaches_skip hml h2
            rw [hl, hx'] at this
            exact ⟨j, rfl, this⟩
      | fork y h1 h2 h3 =>
        obtain ⟨t, ts, hts, ht, hy⟩ := he.forks _ _ h2
        refine .fork (hp _ _ ha.old) ha.line hop hl hx ?_ ?_ ?_ ⟨ts, forks_iff.2 hts⟩
        · rw [h3.same]; dsimp only; rw [hy, skipNops_same]; rfl
        · rw [h3.same]; dsimp only; rw [hy, skipNops_same]
        · rw [h3.same]; dsimp only; rw [hy, skipNops_same]

/-- The last instruction of a branch. -/
theorem Made.last {l : List Op} {b : VmBranch} (h : Made l b) {tr : List Op} {o : Op} (ht : b.trace = tr ++ [o]) :
    ∃ (v : Vm) (b0 : VmBranch) (i : Nat) (c : Int) (m : Mach), Made l b0 ∧ b0.trace = tr ∧ b0.line = some i ∧ At l i o ∧ v.listing = l ∧
      v.executeOp o (v.mach b0 o c) = .ok () m ∧ b.stack = m.br.stack ∧
      ((b.frames = m.br.frames ∧ ∀ x, b.line = some x → ∃ j, m.br.line = some j ∧ Reaches l j (some x)) ∨ (b.frames = [] ∧ ∃ ts, Forks o ts)) := by
  cases h with
  | new h => rw [h] at ht; simp at ht
  | act h0 h1 h2 h3 h4 h5 h6 h7 h8 =>
    rw [h5] at ht
    obtain ⟨e1, e2⟩ := List.append_inj' ht rfl
    cases e2
    exact ⟨_, _, _, _, _, h0, e1, h1, h2, h3, h4, h6, .inl ⟨h7, h8⟩⟩
  | fork h0 h1 h2 h3 h4 h5 h6 h7 h8 =>
    rw [h5] at ht
    obtain ⟨e1, e2⟩ := List.append_inj' ht rfl
    cases e2
    exact ⟨_, _, _, _, _, h0, e1, h1, h2, h3, h4, h6, .inr ⟨h7, h8⟩⟩

end Teal
