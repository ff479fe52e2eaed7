import Verif.Spec.Route
import Verif.Lemmas.VmHist

/-!
# Routes of branches
-/

namespace Teal
open Teal.Spec

theorem reaches_instr {l : List Op} {j i : Nat} {o : Op} (h : Reaches l j (some i)) (ho : At l i o) : FirstFrom l j i := by
  rcases h with ⟨x, hx, h⟩ | ⟨-, h⟩
  · cases hx; exact h
  · have := h i rfl
    have := (List.getElem?_eq_some_iff.1 ho).1
    omega

theorem reaches_behind {l : List Op} {j i : Nat} (h : Reaches l j (some i)) (hi : l.length ≤ i) : NoneFrom l j := by
  rcases h with ⟨x, hx, -, ⟨o, ho, -⟩, -⟩ | ⟨h, -⟩
  · cases hx
    have := (List.getElem?_eq_some_iff.1 ho).1
    omega
  · exact h

/-! ## Names -/

theorem passes_refl (l : List Op) (j : Nat) (n : Bytes) : Passes l j j n n := .inl ⟨rfl, fun y m h1 h2 => by omega⟩

theorem skipLoop_name (l : List Op) (bps : List Nat) (k : Nat) : ∀ (i : Nat) (b : VmBranch) (t : List (Nat × Nat)), l.length - i = k →
    b.line = some i → ∃ j, (skipLoop bps (l.drop i) i b t).2.1.line = some j ∧ i ≤ j ∧ Passes l i j b.name (skipLoop bps (l.drop i) i b t).2.1.name := by
  induction k with
  | zero =>
    intro i b t hn hb
    rw [List.drop_eq_nil_of_le (by omega)]
    exact ⟨i, hb, Nat.le_refl _, passes_refl l i _⟩
  | succ k ih =>
    intro i b t hn hb
    rcases drop_getElem l i with ⟨h, h'⟩ | ⟨o, ho, hd⟩
    · omega
    rw [hd]
    unfold skipLoop
    cases hnop : o.isNop with
    | false =>
      have hlab : b.enter o = b := by
        cases o <;> first | rfl | simp [Op.isNop] at hnop
      dsimp only
      rw [hlab, if_neg (by simp)]
      exact ⟨i, hb, Nat.le_refl _, passes_refl l i _⟩
    | true =>
      dsimp only
      rw [if_pos rfl]
      obtain ⟨j, h1, h2, h3⟩ := ih (i + 1) { b.enter o with line := some (i + 1) }
          (t ++ bpHits bps { b.enter o with line := some (i + 1) }) (by omega) rfl
      refine ⟨j, h1, by omega, ?_⟩
      rcases h3 with ⟨h3, h4⟩ | ⟨y, h3, h4, h5, h6⟩
      · by_cases hl : ∃ m, o = .label m
        · obtain ⟨m, rfl⟩ := hl
          refine .inr ⟨i, Nat.le_refl _, by omega, ?_, fun z m h5 h6 => h4 z m h5 h6⟩
          rw [h3]; exact ho
        · refine .inl ⟨?_, fun y m h5 h6 => ?_⟩
          · rw [h3]
            cases o <;> first | rfl | exact absurd ⟨_, rfl⟩ hl
          · rcases Nat.eq_or_lt_of_le h5 with h | h
            · subst h
              intro h7
              unfold DefinedAt At at h7
              rw [ho] at h7; cases h7
              exact hl ⟨m, rfl⟩
            · exact h4 y m h h6
      · exact .inr ⟨y, by omega, h4, h5, h6⟩

theorem skip_name {l : List Op} {bps : List Nat} {b : VmBranch} {i : Nat} (h : b.line = some i) :
    ∃ j, (b.skipNops l bps).2.1.line = some j ∧ Passes l i j b.name (b.skipNops l bps).2.1.name := by
  unfold VmBranch.skipNops
  rw [h]
  obtain ⟨j, h1, -, h2⟩ := skipLoop_name l bps _ i b [] rfl h
  exact ⟨j, h1, h2⟩

/-! ## One instruction -/

/-- Where an executed instruction on line `i` leaves its branch, by lines, names and calls. -/
inductive Heads (l : List Op) (o : Op) (i : Nat) (b b' : VmBranch) : Prop
  | on (c : Place) : GoesOn l o (i, b.name, callsOf b) c → b'.line = some c.1 → b'.name = c.2.1 → callsOf b' = c.2.2 → Heads l o i b b'
  | halt : Halts o → b'.line = none → b'.name = exitName → Heads l o i b b'
  | lost (t : Bytes) : (o = .branch .b t ∨ o = .branch .callsub t) → (∀ j, ¬ DefinedAt l t j) → b'.line = none → b'.name = b.name → Heads l o i b b'

theorem exec_heads {v : Vm} {o : Op} {b : VmBranch} {i : Nat} {c : Int} {m : Mach}
    (hi : b.line = some i) (h : v.executeOp o (v.mach b o c) = .ok () m) :
    Heads v.listing o i b m.br := by
  have hs := executeOp_spec v o (v.mach b o c)
  rw [h] at hs
  generalize hr : (XRes.ok () m) = r at hs
  cases hs with
  | hang n _ _ => cases hr
  | panic e m' _ => cases hr
  | straight m1 _ h2 _ hc =>
    cases hr
    obtain ⟨s, sc, hl, rfl⟩ := hc
    refine .on _ (.next h2) ?_ rfl rfl
    simp [VmBranch.incLine, Vm.mach, hi]
  | proto a r f fs ho hf =>
    cases hr
    have hf' : b.frames = f :: fs := hf
    refine .on _ (.next ?_) ?_ rfl ?_
    · rw [ho]; rintro (⟨_, h'⟩ | _ | _ | _); cases h'
    · simp [VmBranch.incLine, Vm.mach, hi]
    · simp [callsOf, VmBranch.incLine, hf']
  | exit m1 h1 hc =>
    cases hr
    exact .halt h1 rfl rfl
  | jump t ho =>
    cases hr
    subst ho
    cases hf : findLabel v.listing t with
    | some j => exact .on _ (.jump (findLabel_some hf)) (by exact hf ▸ rfl) rfl rfl
    | none => exact .lost t (.inl rfl) (findLabel_none hf) (by exact hf ▸ rfl) rfl
  | call t ho =>
    cases hr
    subst ho
    cases hf : findLabel v.listing t with
    | some j =>
      refine .on _ (.call (findLabel_some hf)) (by exact hf ▸ rfl) rfl ?_
      simp [callsOf, Vm.mach, hi]
    | none => exact .lost t (.inr rfl) (findLabel_none hf) (by exact hf ▸ rfl) rfl
  | ret f fs m1 ho hf hc =>
    cases hr
    subst ho
    obtain ⟨s, sc, hl, rfl⟩ := hc
    have hf' : b.frames = f :: fs := hf
    have hcs : callsOf b = (f.back, f.name) :: fs.map fun f => (f.back, f.name) := by unfold callsOf; rw [hf']; rfl
    refine .on (f.back, f.name, fs.map fun f => (f.back, f.name)) ?_ rfl rfl rfl
    rw [hcs]; exact .ret
  | retNone ho hf =>
    cases hr
    subst ho
    have hf' : b.frames = [] := hf
    have hcs : callsOf b = [] := by unfold callsOf; rw [hf']; rfl
    refine .on (i + 1, b.name, []) ?_ ?_ rfl ?_
    · rw [hcs]; exact .fall
    · simp [VmBranch.incLine, Vm.mach, hi]
    · exact hcs
  | fork ts m1 ht hc =>
    cases hr
    obtain ⟨s, sc, hl, rfl⟩ := hc
    refine .on _ (.next ?_) ?_ rfl rfl
    · have := forks_iff.2 ht
      rintro (⟨_, h'⟩ | _ | _ | _)
      · cases h' <;> cases this
      all_goals cases this
    · simp [VmBranch.incLine, Vm.mach, hi]

/-! ## Steps -/

/-- A branch is where its history leads. -/
structure Routed (l : List Op) (version : Nat) (again : Bool) (b : VmBranch) : Prop where
  here : ∀ x, b.line = some x → ∃ j n, Route l again b.trace (j, n, callsOf b) ∧ Reaches l j (some x) ∧ Passes l j x n b.name
  ended : b.line = none → Ended l version again b

theorem routed_retired {l : List Op} {version : Nat} {again : Bool} {b b' : VmBranch} (h : Routed l version again b) (hr : Retired l b b') :
    Routed l version again b' := by
  rcases hr with rfl | ⟨x, hx, hlen, rfl⟩
  · exact h
  · refine ⟨fun y hy => (by cases hy), fun _ => ?_⟩
    obtain ⟨j, n, h1, h2, -⟩ := h.here x hx
    exact .behind h1 (reaches_behind h2 hlen) rfl

/-- Going on at a line. -/
theorem routed_skip {l : List Op} {version : Nat} {again : Bool} {b b' : VmBranch} {bps : List Nat} {i : Nat} (hl : b.line = some i)
    (h : Route l again b.trace (i, b.name, callsOf b)) (hr : Retired l (b.skipNops l bps).2.1 b') : Routed l version again b' := by
  have htr : (b.skipNops l bps).2.1.trace = b.trace := skipNops_trace ..
  have hfr : callsOf (b.skipNops l bps).2.1 = callsOf b := by unfold callsOf; rw [skipNops_frames]
  have hre := reaches_skip hl (.refl l (b.skipNops l bps).2.1)
  refine routed_retired ?_ hr
  obtain ⟨j, h1, h2⟩ := skip_name (l := l) (bps := bps) hl
  refine ⟨fun x hx => ⟨i, b.name, by rw [htr, hfr]; exact h, by rw [← hx]; exact hre, ?_⟩, fun hx => ?_⟩
  · rw [h1] at hx; cases hx; exact h2
  · rw [h1] at hx; cases hx

/-- What a step did, failed or not. -/
inductive Did' (v w : Vm) (j : Nat) (b' : VmBranch) : Prop
  | stayed (b : VmBranch) : v.branches[j]? = some b → Retired v.listing b b' → Did' v w j b'
  | poor (b : VmBranch) (i : Nat) (o : Op) (c : Int) : Acts v j b i o → CostIs v.version b o c → b.budget < c → b' = b.exit → Did' v w j b'
  | failed (b : VmBranch) (i : Nat) (o : Op) : w.error ≠ none → Acts v j b i o → b'.line = b.line → b'.trace = b.trace ++ [o] →
      b'.frames = b.frames → b'.name = b.name → Did' v w j b'
  | did : w.error = none → Did v w j b' → (∀ b, v.branches[j]? = some b → b'.trace ≠ b.trace) → Did' v w j b'

theorem step_did' {v w : Vm} (hv : Inv v) (h : v.step = some w) {j : Nat} {b' : VmBranch} (hb : w.branches[j]? = some b') :
    Did' v w j b' := by
  have hs := step_spec hv
  rw [h] at hs
  generalize hr : some w = r at hs
  have ofStart : ∀ {x}, v.start.branches[j]? = some x → Did' v w j x := by
    intro x hx
    obtain ⟨b, h1, h2⟩ := start_origin hv hx
    exact .stayed b h1 h2
  cases hs with
  | idle _ => cases hr; exact ofStart hb
  | costErr _ _ => cases hr; exact ofStart hb
  | @poor k b i o c ha hc hp =>
    cases hr
    rcases getElem?_set_cases hb with ⟨rfl, rfl⟩ | ⟨-, h⟩
    · exact .poor b i o c ha hc hp rfl
    · exact ofStart h
  | hang => cases hr
  | @fail k b i o c e m ha hc hle hx =>
    cases hr
    obtain ⟨s, sc, hl, hm⟩ := exec_panic hx
    subst hm
    simp only [Vm.writeBack, Vm.mach, List.append_nil] at hb
    rcases getElem?_set_cases hb with ⟨rfl, rfl⟩ | ⟨-, h⟩
    · exact .failed b i o (by simp) ha rfl rfl rfl rfl
    · exact ofStart h
  | @done k b i o c m ha hc hle hx =>
    cases hr
    have hf := ha.finished hv hx
    have he : (v.finish k m).error = none := by rw [hf.error]
    cases finished_origin hv hf hb with
    | other b0 hne h1 h2 => exact .stayed b0 h1 h2
    | self h1 h2 =>
      subst h1
      refine .did he (step_did hv h he hb) fun b0 h0 => ?_
      rw [ha.old] at h0; cases h0
      rw [acted_trace hx h2]
      intro h'
      have := congrArg List.length h'
      simp at this
    | fork y h1 h2 h3 =>
      refine .did he (step_did hv h he hb) fun b0 h0 => ?_
      have := (List.getElem?_eq_some_iff.1 h0).1
      omega

theorem routed_step {v w : Vm} {again : Bool} (hv : Inv v) (hp : ∀ (j : Nat) (b : VmBranch), v.branches[j]? = some b → Routed v.listing v.version again b)
    (h : v.step = some w) (he : w.error = none ∨ again = true) : ∀ (j : Nat) (b : VmBranch), w.branches[j]? = some b →
      Routed v.listing v.version again b := by
  intro j b' hb'
  cases step_did' hv h hb' with
  | stayed b hb hr => exact routed_retired (hp j b hb) hr
  | poor b i o c ha hc hlt hb =>
    subst hb
    refine ⟨fun y hy => (by cases hy), fun _ => ?_⟩
    obtain ⟨j0, n0, h1, h2, -⟩ := (hp j b ha.old).here i ha.line
    refine .broke h1 (reaches_instr h2 (acts_at ha)) (acts_at ha) ?_ rfl
    by_cases hj : ∃ f, o = .field .jsonRef f
    · exact .inr hj
    · exact .inl ⟨c, costIs_spec hc (fun f hf => hj ⟨f, hf⟩), hlt⟩
  | failed b i o hne ha hl ht hf hn =>
    have hag : again = true := he.resolve_left hne
    obtain ⟨j0, n0, h1, h2, h3⟩ := (hp j b ha.old).here i ha.line
    have hfr : callsOf b' = callsOf b := by unfold callsOf; rw [hf]
    refine ⟨fun y hy => ?_, fun hn => by rw [hl, ha.line] at hn; cases hn⟩
    rw [hl, ha.line] at hy; cases hy
    exact ⟨j0, n0, by rw [ht, hfr]; exact .failed hag h1 (reaches_instr h2 (acts_at ha)) (acts_at ha), h2, by rw [hn]; exact h3⟩
  | did hz hd hnt =>
    cases hd with
    | stayed b hb hs hl => exact absurd (stayed_same hs).2.1 (hnt b hb)
    | acted b i o c m ha hcost hle hx hr _ =>
      have htr := acted_trace hx hr
      have hmt : m.br.trace = b.trace ++ [o] := by rw [(exec_ok rfl hx).trace]; rfl
      obtain ⟨j0, n0, h1, h2, h3⟩ := (hp j b ha.old).here i ha.line
      have hat := acts_at ha
      have hfirst := reaches_instr h2 hat
      have hnone : m.br.line = none → b' = m.br := by
        intro hn
        rw [skipNops_none _ _ _ hn] at hr
        rcases hr with hr | ⟨y, hy, -⟩
        · exact hr
        · rw [hn] at hy; cases hy
      cases exec_heads ha.line hx with
      | on c hg hl hn hc =>
        refine routed_skip hl ?_ hr
        rw [hmt, hn, hc]
        exact .on h1 hfirst h3 hat hg
      | halt hh hl hn =>
        obtain rfl := hnone hl
        exact ⟨fun x hx => (by rw [hl] at hx; cases hx), fun _ => .halted htr h1 hfirst hat hh hn⟩
      | lost t ho hd hl hn =>
        obtain rfl := hnone hl
        exact ⟨fun x hx => (by rw [hl] at hx; cases hx), fun _ => .lost htr h1 hfirst hat ho hd (by rw [hn]; exact h3)⟩
    | forked k b i o c m ts t x hle ha hcost _ hx hts ht hxx hr _ =>
      have hxt : x.trace = b.trace ++ [o] := by rw [hxx]
      have hxf : callsOf x = [] := by rw [hxx]; rfl
      have hxn : x.name = t := by rw [hxx]
      obtain ⟨j0, n0, h1, h2, -⟩ := (hp k b ha.old).here i ha.line
      have hfirst := reaches_instr h2 (acts_at ha)
      cases hlab : findLabel v.listing t with
      | none =>
        have hn : x.line = none := by rw [hxx]; exact hlab
        rw [skipNops_none _ _ _ hn] at hr
        have hb : b' = x := by
          rcases hr with hr | ⟨y, hy, -⟩
          · exact hr
          · rw [hn] at hy; cases hy
        subst hb
        refine ⟨fun y hy => (by rw [hn] at hy; cases hy), fun _ => ?_⟩
        exact .stray hxt h1 hfirst (acts_at ha) (forks_iff.2 hts) (by rw [hxn]; exact List.mem_of_getElem? ht)
          (by rw [hxn]; exact findLabel_none hlab)
      | some z =>
        have hl : x.line = some z := by rw [hxx]; exact hlab
        refine routed_skip hl ?_ hr
        rw [hxt, hxf, hxn]
        exact .fork h1 hfirst (acts_at ha) (forks_iff.2 hts) (List.mem_of_getElem? ht) (findLabel_some hlab)

theorem new_branch (l : List Op) (version : Nat) : ∃ b0 b1 : VmBranch, b0.line = some 0 ∧ b0.trace = [] ∧ b0.frames = [] ∧ b0.name = mainName ∧
    (Vm.new l version).branches = [b1] ∧ Retired l (b0.skipNops l []).2.1 b1 := by
  obtain ⟨b0, hb0⟩ : ∃ b0 : VmBranch, b0 = { id := 0, line := some 0, stack := [], frames := [], budget := 700, name := mainName, trace := [] } := ⟨_, rfl⟩
  have hl : b0.line = some 0 := by rw [hb0]
  obtain ⟨j, -, hr, hnb, ht, hf, -⟩ := (skipNops_some l [] b0 0 hl).land
  have hj : (b0.skipNops l []).2.1.line = some j := by rw [hr]
  have key : (Vm.new l version).branches = [if (b0.skipNops l []).1 then (b0.skipNops l []).2.1 else (b0.skipNops l []).2.1.exit] := by
    unfold Vm.new Vm.skipNops
    rw [← hb0]
    show (Vm.skipBranches 1 _).branches = _
    unfold Vm.skipBranches
    dsimp only [List.getElem?_cons_zero]
    rw [hl, if_neg (by simp)]
    cases hc : (b0.skipNops l []).1 with
    | true => rw [if_pos rfl, if_pos rfl]; rfl
    | false => rw [if_neg Bool.false_ne_true, if_neg Bool.false_ne_true]; rfl
  refine ⟨b0, _, hl, by rw [hb0], by rw [hb0], by rw [hb0], key, ?_⟩
  cases hc : (b0.skipNops l []).1 with
  | true => exact .inl (by simp)
  | false => exact .inr ⟨j, hj, hf hc, by simp⟩

theorem routed_new {l : List Op} {version : Nat} {again : Bool} {j : Nat} {b : VmBranch} (h : (Vm.new l version).branches[j]? = some b) :
    Routed l version again b := by
  obtain ⟨b0, b1, h1, h2, h3, h4, h5, h6⟩ := new_branch l version
  rw [h5] at h
  cases j with
  | succ j => simp at h
  | zero =>
    cases h
    refine routed_skip h1 ?_ h6
    rw [h2, h4, show callsOf b0 = [] by unfold callsOf; rw [h3]; rfl]
    exact .start

theorem clean_routed {l : List Op} {version : Nat} {v : Vm} (h : Clean l version v) :
    ∀ (j : Nat) (b : VmBranch), v.branches[j]? = some b → Routed l version false b := by
  have step' : ∀ v w, (Session l version v ∧ ∀ (j : Nat) (b : VmBranch), v.branches[j]? = some b → Routed l version false b) → v.step = some w →
      w.error = none → (Session l version w ∧ ∀ (j : Nat) (b : VmBranch), w.branches[j]? = some b → Routed l version false b) := by
    rintro v w ⟨hs, hp⟩ h1 he
    obtain ⟨e1, e2⟩ := session_listing hs
    refine ⟨.step hs h1, ?_⟩
    rw [← e1, ← e2] at hp ⊢
    exact routed_step (session_inv hs) hp h1 (.inl he)
  have key : Session l version v ∧ ∀ (j : Nat) (b : VmBranch), v.branches[j]? = some b → Routed l version false b := by
    induction h with
    | new => exact ⟨.new, fun j b hb => routed_new hb⟩
    | step _ h1 he ih => exact step' _ _ ih h1 he
    | run _ h1 he ih => exact runs_ok_induct step' h1 ih he
    | switch id h0 ih => exact ⟨.switch id ih.1, by rw [switch_branches]; exact ih.2⟩
    | breakpoints lns h0 h1 ih => exact ⟨.breakpoints lns ih.1 h1, by rw [setBreakpoints_branches h1]; exact ih.2⟩
  exact key.2

theorem session_routed {l : List Op} {version : Nat} {v : Vm} (h : Session l version v) :
    ∀ (j : Nat) (b : VmBranch), v.branches[j]? = some b → Routed l version true b := by
  have step' : ∀ v w, (Session l version v ∧ ∀ (j : Nat) (b : VmBranch), v.branches[j]? = some b → Routed l version true b) → v.step = some w →
      (Session l version w ∧ ∀ (j : Nat) (b : VmBranch), w.branches[j]? = some b → Routed l version true b) := by
    rintro v w ⟨hs, hp⟩ h1
    obtain ⟨e1, e2⟩ := session_listing hs
    refine ⟨.step hs h1, ?_⟩
    rw [← e1, ← e2] at hp ⊢
    exact routed_step (session_inv hs) hp h1 (.inr rfl)
  have key : Session l version v ∧ ∀ (j : Nat) (b : VmBranch), v.branches[j]? = some b → Routed l version true b := by
    induction h with
    | new => exact ⟨.new, fun j b hb => routed_new hb⟩
    | step _ h1 ih => exact step' _ _ ih h1
    | run _ h1 ih => exact runs_induct step' h1 ih
    | switch id h0 ih => exact ⟨.switch id ih.1, by rw [switch_branches]; exact ih.2⟩
    | breakpoints lns h0 h1 ih => exact ⟨.breakpoints lns ih.1 h1, by rw [setBreakpoints_branches h1]; exact ih.2⟩
  exact key.2

end Teal
