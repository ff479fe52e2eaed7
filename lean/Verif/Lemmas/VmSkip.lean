import Verif.Lemmas.VmExec

/-!
# Skipping lines that do nothing
-/

namespace Teal

theorem isNop_iff (o : Op) : o.isNop = true ↔ Spec.NoOp o := by
  cases o <;> simp [Op.isNop] <;> first | (intro h; cases h; done) | (constructor; done)

/-- The line `i` holds an instruction. -/
def InstrAt (l : List Op) (i : Nat) : Prop := ∃ o, l[i]? = some o ∧ o.isNop = false

/-- Everything between the lines `i` and `j` does nothing. -/
def NopsBetween (l : List Op) (i j : Nat) : Prop :=
  ∀ x, i ≤ x → x < j → ∃ o, l[x]? = some o ∧ o.isNop = true

/-- The branch has finished, is behind the last line, or is at an instruction. -/
def Settled (l : List Op) (b : VmBranch) : Prop :=
  ∀ i, b.line = some i → l.length ≤ i ∨ InstrAt l i

theorem mem_bpHits {bps : List Nat} {b : VmBranch} {e : Nat × Nat} :
    e ∈ bpHits bps b ↔ e.1 = b.id ∧ e.2 ∈ bps ∧ b.line = some e.2 := by
  obtain ⟨x, y⟩ := e
  simp only [bpHits, List.mem_map, List.mem_filter, beq_iff_eq, Prod.mk.injEq]
  constructor
  · rintro ⟨a, ⟨h1, h2⟩, h3, rfl⟩; exact ⟨h3.symm, h1, h2⟩
  · rintro ⟨h1, h2, h3⟩; exact ⟨y, ⟨h2, h3⟩, h1.symm, rfl⟩

/-- What `skipNops` does to a branch at line `i`. -/
structure Skipped (l : List Op) (bps : List Nat) (b : VmBranch) (i : Nat)
    (r : Bool × VmBranch × List (Nat × Nat)) (t : List (Nat × Nat)) : Prop where
  land : ∃ j, i ≤ j ∧ r.2.1 = { b with line := some j, name := r.2.1.name } ∧
    NopsBetween l i j ∧ (r.1 = true → InstrAt l j) ∧ (r.1 = false → l.length ≤ j) ∧
    (j = i → r.2.1 = b ∧ r.2.2 = t) ∧
    ∃ u, r.2.2 = t ++ u ∧ (∀ e ∈ u, e.1 = b.id ∧ e.2 ∈ bps ∧ i < e.2 ∧ e.2 ≤ j) ∧
      (i < j → j ∈ bps → (b.id, j) ∈ u)

theorem drop_getElem {α : Type} (l : List α) (i : Nat) :
    (l.drop i = [] ∧ l.length ≤ i) ∨ ∃ a, l[i]? = some a ∧ l.drop i = a :: l.drop (i + 1) := by
  rcases Nat.lt_or_ge i l.length with h | h
  · right
    exact ⟨l[i], List.getElem?_eq_getElem h, List.drop_eq_getElem_cons h⟩
  · left
    exact ⟨List.drop_eq_nil_of_le h, h⟩

theorem skipLoop_spec (l : List Op) (bps : List Nat) (n : Nat) : ∀ (i : Nat) (b : VmBranch)
    (t : List (Nat × Nat)), l.length - i = n → b.line = some i →
    Skipped l bps b i (skipLoop bps (l.drop i) i b t) t := by
  induction n with
  | zero =>
    intro i b t hn hb
    rw [List.drop_eq_nil_of_le (by omega)]
    refine ⟨i, Nat.le_refl _, ?_, fun x h1 h2 => by omega, by simp [skipLoop], fun _ => by omega,
      fun _ => ⟨rfl, rfl⟩, [], by simp [skipLoop], by simp, by omega⟩
    cases b; simp only [skipLoop] at hb ⊢; rw [hb]
  | succ n ih =>
    intro i b t hn hb
    rcases drop_getElem l i with ⟨h, h'⟩ | ⟨o, ho, hd⟩
    · omega
    rw [hd]
    unfold skipLoop
    cases hnop : o.isNop with
    | false =>
      have hlab : b.enter o = b := by
        cases o <;> first | rfl | simp [Op.isNop] at hnop
      dsimp only
      rw [hlab, if_neg (by simp)]
      refine ⟨i, Nat.le_refl _, ?_, fun x h1 h2 => by omega, fun _ => ⟨o, ho, hnop⟩, by simp,
        fun _ => ⟨rfl, rfl⟩, [], by simp, by simp, by omega⟩
      cases b; simp only at hb ⊢; simp [hb]
    | true =>
      dsimp only
      rw [if_pos rfl]
      generalize hb1 : b.enter o = b1
      have hb1' : b1 = { b with name := b1.name } := by
        subst hb1; cases o <;> rfl
      obtain ⟨j, hj, hr, hnb, ht, hf, heq, u, hu, hu1, hu2⟩ :=
        (ih (i + 1) { b1 with line := some (i + 1) }
          (t ++ bpHits bps { b1 with line := some (i + 1) }) (by omega) rfl).land
      have hid : b1.id = b.id := by rw [hb1']
      refine ⟨j, by omega, ?_, ?_, ht, hf, fun h => by omega,
        bpHits bps { b1 with line := some (i + 1) } ++ u, ?_, ?_, ?_⟩
      · rw [hr, hb1']
      · intro x h1 h2
        rcases Nat.eq_or_lt_of_le h1 with h | h
        · subst h; exact ⟨o, ho, hnop⟩
        · exact hnb x h h2
      · rw [hu, List.append_assoc]
      · intro e he
        rcases List.mem_append.1 he with he | he
        · obtain ⟨e1, e2, e3⟩ := mem_bpHits.1 he
          simp only [Option.some.injEq] at e3
          exact ⟨e1.trans hid, e2, by omega, by omega⟩
        · obtain ⟨e1, e2, e3, e4⟩ := hu1 e he
          exact ⟨e1.trans hid, e2, by omega, e4⟩
      · intro h1 h2
        rcases Nat.eq_or_lt_of_le hj with h | h
        · refine List.mem_append.2 (.inl (mem_bpHits.2 ⟨hid.symm, h2, ?_⟩))
          simp [h]
        · have := hu2 h h2
          rw [show ({ b1 with line := some (i + 1) } : VmBranch).id = b.id from hid] at this
          exact List.mem_append.2 (.inr this)

theorem skipNops_none (l : List Op) (bps : List Nat) (b : VmBranch) (h : b.line = none) :
    b.skipNops l bps = (false, b, []) := by
  unfold VmBranch.skipNops; rw [h]

theorem skipNops_some (l : List Op) (bps : List Nat) (b : VmBranch) (i : Nat) (h : b.line = some i) :
    Skipped l bps b i (b.skipNops l bps) [] := by
  unfold VmBranch.skipNops; rw [h]
  exact skipLoop_spec l bps _ i b [] rfl h

/-- What `skipNops` leaves alone. -/
theorem skipNops_same (l : List Op) (bps : List Nat) (b : VmBranch) :
    (b.skipNops l bps).2.1 =
      { b with line := (b.skipNops l bps).2.1.line, name := (b.skipNops l bps).2.1.name } := by
  cases h : b.line with
  | none => rw [skipNops_none l bps b h]
  | some i =>
    obtain ⟨j, -, hr, -⟩ := (skipNops_some l bps b i h).land
    have : (b.skipNops l bps).2.1.line = some j := by rw [hr]
    rw [this]; exact hr

theorem InstrAt.lt {l : List Op} {i : Nat} (h : InstrAt l i) : i < l.length := by
  obtain ⟨o, ho, -⟩ := h
  exact (List.getElem?_eq_some_iff.1 ho).1

theorem skipNops_settled (l : List Op) (bps : List Nat) (b : VmBranch) :
    Settled l (b.skipNops l bps).2.1 := by
  intro j hj
  cases h : b.line with
  | none => rw [skipNops_none l bps b h] at hj; rw [h] at hj; cases hj
  | some i =>
    obtain ⟨j', -, hr, -, ht, hf, -⟩ := (skipNops_some l bps b i h).land
    rw [hr] at hj
    cases hj
    cases hb : (b.skipNops l bps).1
    · exact .inl (hf hb)
    · exact .inr (ht hb)

theorem instr_not_nop {l : List Op} {i : Nat} (h : InstrAt l i)
    (h' : ∃ o, l[i]? = some o ∧ o.isNop = true) : False := by
  obtain ⟨o, h1, h2⟩ := h
  obtain ⟨o', h1', h2'⟩ := h'
  rw [h1] at h1'; cases h1'; rw [h2] at h2'; cases h2'

/-- A settled branch is not changed. -/
theorem skipNops_of_settled (l : List Op) (bps : List Nat) (b : VmBranch) (h : Settled l b) :
    (b.skipNops l bps).2 = (b, []) ∧
      ((b.skipNops l bps).1 = true ↔ ∃ i, b.line = some i ∧ InstrAt l i) := by
  cases hb : b.line with
  | none => rw [skipNops_none l bps b hb]; simp
  | some i =>
    obtain ⟨j, hij, hr, hnb, ht, hf, heq, -⟩ := (skipNops_some l bps b i hb).land
    have hji : j = i := by
      rcases Nat.eq_or_lt_of_le hij with h' | h'
      · exact h'.symm
      · obtain ⟨o, ho, hn⟩ := hnb i (Nat.le_refl _) h'
        rcases h i hb with h1 | h1
        · rw [List.getElem?_eq_none h1] at ho; cases ho
        · exact (instr_not_nop h1 ⟨o, ho, hn⟩).elim
    subst hji
    obtain ⟨e1, e2⟩ := heq rfl
    refine ⟨Prod.ext e1 e2, ?_, ?_⟩
    · intro h1; exact ⟨j, rfl, ht h1⟩
    · rintro ⟨i', h1, h2⟩
      cases h1
      cases hc : (b.skipNops l bps).1
      · have := hf hc; have := h2.lt; omega
      · rfl

/-! ## `Vm.skipNops` -/

/-- Branches behind the last line may have been marked as exited. -/
def Retired (l : List Op) (b b' : VmBranch) : Prop :=
  b' = b ∨ ∃ j, b.line = some j ∧ l.length ≤ j ∧ b' = b.exit

theorem Retired.refl (l : List Op) (b : VmBranch) : Retired l b b := .inl rfl

theorem Retired.trans {l : List Op} {a b c : VmBranch} (h1 : Retired l a b) (h2 : Retired l b c) :
    Retired l a c := by
  rcases h1 with rfl | ⟨j, h, hj, rfl⟩
  · exact h2
  · rcases h2 with rfl | ⟨j', h', -, -⟩
    · exact .inr ⟨j, h, hj, rfl⟩
    · cases h'

def AllRetired (l : List Op) (bs bs' : List VmBranch) : Prop :=
  bs'.length = bs.length ∧ ∀ (i : Nat) (b b' : VmBranch), bs[i]? = some b → bs'[i]? = some b' → Retired l b b'

theorem AllRetired.refl (l : List Op) (bs : List VmBranch) : AllRetired l bs bs :=
  ⟨rfl, fun i b b' h h' => by rw [h] at h'; cases h'; exact .refl l b⟩

theorem AllRetired.trans {l : List Op} {as bs cs : List VmBranch} (h1 : AllRetired l as bs)
    (h2 : AllRetired l bs cs) : AllRetired l as cs := by
  refine ⟨h2.1.trans h1.1, fun i a c ha hc => ?_⟩
  have hi : i < bs.length := by
    have := (List.getElem?_eq_some_iff.1 ha).1; rw [h1.1]; exact this
  exact (h1.2 i a _ ha (List.getElem?_eq_getElem hi)).trans (h2.2 i _ c (List.getElem?_eq_getElem hi) hc)

theorem getElem?_set_cases {α : Type} {l : List α} {k i : Nat} {a b : α}
    (h : (l.set k a)[i]? = some b) : (i = k ∧ b = a) ∨ (i ≠ k ∧ l[i]? = some b) := by
  rw [List.getElem?_set] at h
  split at h
  · rename_i hki
    split at h
    · cases h; exact .inl ⟨hki.symm, rfl⟩
    · cases h
  · rename_i hki; exact .inr ⟨fun h' => hki h'.symm, h⟩

theorem AllRetired.exit {l : List Op} {bs : List VmBranch} {k j : Nat} {b : VmBranch}
    (hk : bs[k]? = some b) (hj : b.line = some j) (hl : l.length ≤ j) :
    AllRetired l bs (bs.set k b.exit) := by
  refine ⟨List.length_set, fun i a c ha hc => ?_⟩
  rcases getElem?_set_cases hc with ⟨rfl, rfl⟩ | ⟨-, h⟩
  · rw [hk] at ha; cases ha; exact .inr ⟨j, hj, hl, rfl⟩
  · rw [ha] at h; cases h; exact .refl l a

theorem set_self {α : Type} {l : List α} {k : Nat} {a : α} (h : l[k]? = some a) : l.set k a = l := by
  obtain ⟨hk, rfl⟩ := List.getElem?_eq_some_iff.1 h
  exact List.set_getElem_self hk

/-- What `skipBranches` does when every branch is settled. -/
structure Skip (v w : Vm) : Prop where
  eq : w = { v with branches := w.branches, current := w.current, branch := w.branch }
  retired : AllRetired v.listing v.branches w.branches
  current : w.current < w.branches.length
  sel : ∀ k, w.branch = some k → k = w.current ∧ ∃ (b : VmBranch) (i : Nat),
    v.branches[k]? = some b ∧ w.branches[k]? = some b ∧ b.line = some i ∧ InstrAt v.listing i

theorem skipBranches_spec (n : Nat) : ∀ (v : Vm), v.current < v.branches.length →
    (∀ b ∈ v.branches, Settled v.listing b) →
    Skip v (Vm.skipBranches n v) ∧
    ((Vm.skipBranches n v).branch = none →
      ∀ d, d < n → ∀ b, (Vm.skipBranches n v).branches[(v.current + d) % v.branches.length]? = some b →
        b.line = none) := by
  induction n with
  | zero =>
    intro v hc _
    exact ⟨⟨rfl, .refl _ _, hc, fun k h => by cases h⟩, fun _ d hd => by omega⟩
  | succ n ih =>
    intro v hc hs
    unfold Vm.skipBranches
    have hb := List.getElem?_eq_getElem hc
    rw [hb]
    dsimp only
    generalize hbb : v.branches[v.current] = b at hb
    have hset : Settled v.listing b := hs b (hbb ▸ List.getElem_mem hc)
    have adv : ∀ u : Vm, u.current < u.branches.length → u.advance.current < u.advance.branches.length ∧
        u.advance.current = (u.current + 1) % u.branches.length := by
      intro u hu
      unfold Vm.advance
      dsimp only
      split
      · rename_i h; rw [h, Nat.mod_self]; exact ⟨by omega, rfl⟩
      · rw [Nat.mod_eq_of_lt (by omega)]; exact ⟨by omega, rfl⟩
    by_cases hl : b.line = none
    · rw [if_pos hl]
      obtain ⟨h1, h2⟩ := adv v hc
      obtain ⟨hsk, hnone⟩ := ih v.advance h1 hs
      refine ⟨⟨by rw [hsk.eq]; rfl, hsk.retired, hsk.current, hsk.sel⟩, fun hn d hd c hc' => ?_⟩
      cases d with
      | zero =>
        rw [Nat.add_zero, Nat.mod_eq_of_lt hc] at hc'
        rcases hsk.retired.2 v.current b c hb hc' with rfl | ⟨j, hj, -, -⟩
        · exact hl
        · rw [hl] at hj; cases hj
      | succ d =>
        refine hnone hn d (by omega) c ?_
        rw [h2]
        show _[((v.current + 1) % v.branches.length + d) % v.branches.length]? = _
        rw [Nat.mod_add_mod, Nat.add_assoc, Nat.add_comm 1 d]
        exact hc'
    · rw [if_neg hl]
      obtain ⟨e1, e2⟩ := skipNops_of_settled v.listing v.breakpoints b hset
      rw [e1]
      dsimp only
      rw [set_self hb, List.append_nil]
      cases hf : (b.skipNops v.listing v.breakpoints).1 with
      | true =>
        obtain ⟨i, hi, hin⟩ := e2.1 hf
        rw [if_pos rfl]
        refine ⟨⟨rfl, .refl _ _, hc, ?_⟩, by simp⟩
        intro k hk
        cases hk
        exact ⟨rfl, b, i, hb, hb, hi, hin⟩
      | false =>
        rw [if_neg (by simp)]
        obtain ⟨j, hj⟩ := Option.ne_none_iff_exists'.1 hl
        have hlen : v.listing.length ≤ j := by
          rcases hset j hj with h | h
          · exact h
          · have := e2.2 ⟨j, hj, h⟩; rw [hf] at this; cases this
        have hret := AllRetired.exit hb hj hlen
        generalize hu : ({ v with branches := v.branches.set v.current b.exit } : Vm) = u
        have hul : u.branches = v.branches.set v.current b.exit := by rw [← hu]
        have huc : u.current = v.current := by rw [← hu]
        have hulist : u.listing = v.listing := by rw [← hu]
        have hulen : u.branches.length = v.branches.length := by rw [hul]; exact List.length_set
        have huc' : u.current < u.branches.length := by rw [huc, hulen]; exact hc
        obtain ⟨h1, h2⟩ := adv u huc'
        have hs' : ∀ x ∈ u.branches, Settled u.listing x := by
          rw [hulist, hul]
          intro x hx
          rcases List.mem_or_eq_of_mem_set hx with h | rfl
          · exact hs x h
          · intro i hi; cases hi
        obtain ⟨hsk, hnone⟩ := ih u.advance h1 hs'
        have hr := hsk.retired
        rw [show u.advance.listing = v.listing from hulist,
          show u.advance.branches = u.branches from rfl, hul] at hr
        refine ⟨⟨?_, hret.trans hr, hsk.current, ?_⟩, fun hn d hd c hc' => ?_⟩
        · rw [hsk.eq]
          subst hu
          rfl
        · intro k hk
          obtain ⟨q1, c, i, q2, q3, q4, q5⟩ := hsk.sel k hk
          refine ⟨q1, c, i, ?_, q3, q4, by rw [← hulist]; exact q5⟩
          have q2' : (v.branches.set v.current b.exit)[k]? = some c := by rw [← hul]; exact q2
          rcases getElem?_set_cases q2' with ⟨-, rfl⟩ | ⟨-, h⟩
          · cases q4
          · exact h
        · cases d with
          | zero =>
            rw [Nat.add_zero, Nat.mod_eq_of_lt hc] at hc'
            have hq : (v.branches.set v.current b.exit)[v.current]? = some b.exit := by
              rw [List.getElem?_set_self hc]
            rcases hr.2 v.current b.exit c hq hc' with rfl | ⟨j', hj', -, -⟩
            · rfl
            · cases hj'
          | succ d =>
            refine hnone hn d (by omega) c ?_
            rw [h2]
            show _[((u.current + 1) % u.branches.length + d) % u.branches.length]? = _
            rw [Nat.mod_add_mod, Nat.add_assoc, Nat.add_comm 1 d, huc, hulen]
            exact hc'

theorem skipNops_spec (v : Vm) (hc : v.current < v.branches.length)
    (hs : ∀ b ∈ v.branches, Settled v.listing b) :
    Skip v v.skipNops ∧ (v.skipNops.branch = none → ∀ b ∈ v.skipNops.branches, b.line = none) := by
  obtain ⟨h1, h2⟩ := skipBranches_spec v.branches.length v hc hs
  refine ⟨h1, fun hn b hb => ?_⟩
  obtain ⟨i, hi, rfl⟩ := List.getElem_of_mem hb
  have hlen : v.skipNops.branches.length = v.branches.length := h1.retired.1
  have hi' : i < v.branches.length := by rw [← hlen]; exact hi
  refine h2 hn ((i + (v.branches.length - v.current)) % v.branches.length)
    (Nat.mod_lt _ (by omega)) _ ?_
  rw [Nat.add_mod_mod, show v.current + (i + (v.branches.length - v.current)) = i + v.branches.length by omega,
    Nat.add_mod_right, Nat.mod_eq_of_lt hi']
  exact List.getElem?_eq_getElem hi

end Teal
