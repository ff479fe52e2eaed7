import Verif.Model.Fields
import Verif.Model.Consts
import Verif.Spec.Fields
import Verif.Spec.Consts
import Verif.Lemmas.Strconv

namespace Teal

open Spec

theorem GoMap.get_set {α : Type} (m : GoMap α) (k k' : Bytes) (v : α) :
    (m.set k v).get k' = if k = k' then some v else m.get k' := by
  unfold GoMap.set GoMap.get
  by_cases h : k = k'
  · simp [h]
  · simp [h]

theorem GoMap.get_nil {α : Type} (k : Bytes) : GoMap.get ([] : GoMap α) k = none := rfl

/-- Filling a map from a list: a key not set by the list keeps its value. -/
theorem get_foldl_set_not_mem {α β : Type} (key : β → Bytes) (val : β → α) (l : List β)
    (m : GoMap α) (k : Bytes) (h : k ∉ l.map key) :
    (l.foldl (fun m x => m.set (key x) (val x)) m).get k = m.get k := by
  induction l generalizing m with
  | nil => rfl
  | cons x l ih =>
    simp only [List.map_cons, List.mem_cons, not_or] at h
    rw [List.foldl_cons, ih _ h.2, GoMap.get_set, if_neg (fun e => h.1 e.symm)]

/-- Filling a map from a list with distinct keys. -/
theorem get_foldl_set_mem {α β : Type} (key : β → Bytes) (val : β → α) (l : List β)
    (hn : (l.map key).Nodup) (m : GoMap α) (x : β) (hx : x ∈ l) :
    (l.foldl (fun m x => m.set (key x) (val x)) m).get (key x) = some (val x) := by
  induction l generalizing m with
  | nil => cases hx
  | cons y l ih =>
    simp only [List.map_cons, List.nodup_cons] at hn
    rw [List.foldl_cons]
    rcases List.mem_cons.1 hx with rfl | hx
    · rw [get_foldl_set_not_mem key val l _ _ hn.1, GoMap.get_set, if_pos rfl]
    · exact ih hn.2 _ hx

theorem specNames_nodup (g : FieldGroup) : (g.specs.map fun s => g.str s.field).Nodup := by
  cases g <;> decide +kernel

theorem specByName_mem (g : FieldGroup) (s : FieldSpec) (h : s ∈ g.specs) :
    g.specByName.get (g.str s.field) = some s :=
  get_foldl_set_mem (fun s : FieldSpec => g.str s.field) id g.specs (specNames_nodup g) [] s h

theorem specByName_none (g : FieldGroup) (k : Bytes) (h : ∀ s ∈ g.specs, g.str s.field ≠ k) :
    g.specByName.get k = none := by
  have := get_foldl_set_not_mem (fun s => g.str s.field) id g.specs [] k (by
    intro hm
    obtain ⟨s, hs, rfl⟩ := List.mem_map.1 hm
    exact h s hs rfl)
  exact this

/-- The initialisation checks `equal(int(s.field), i)` hold: no panic at start-up. -/
theorem spec_fields_in_order (g : FieldGroup) :
    g.specs.map (·.field) = List.range g.specs.length := by
  cases g <;> decide +kernel

theorem mem_specs_of_index (g : FieldGroup) (i : Nat) (s : FieldSpec) (h : g.specs[i]? = some s) :
    s ∈ g.specs ∧ s.field = i := by
  refine ⟨List.mem_of_getElem? h, ?_⟩
  have := spec_fields_in_order g
  have h2 := congrArg (fun l => l[i]?) this
  simp only [List.getElem?_map, h, Option.map_some] at h2
  obtain ⟨hi, _⟩ := List.getElem?_eq_some_iff.1 h
  rw [List.getElem?_range hi] at h2
  exact Option.some.inj h2

/-! ## Named constants -/

theorem txnTypeDescribe_get (base : GoMap Nat) (l : List (Bytes × Bytes)) :
    ∀ (m : GoMap Nat), (∀ kv ∈ l, ∀ kv' ∈ l, kv.1 ≠ kv'.2) → (l.map (·.2)).Nodup →
    (∀ kv ∈ l, m.get kv.1 = base.get kv.1) → ∀ k,
    (txnTypeDescribe m l).get k =
      match l.find? (fun kv => kv.2 == k) with
      | some kv => some ((base.get kv.1).getD 0)
      | none => m.get k := by
  induction l with
  | nil => intro m _ _ _ k; rfl
  | cons x l ih =>
    intro m h1 h2 h3 k
    simp only [List.map_cons, List.nodup_cons] at h2
    have e : txnTypeDescribe m (x :: l) =
        txnTypeDescribe (m.set x.2 ((m.get x.1).getD 0)) l := rfl
    rw [e, ih _ (fun a ha b hb => h1 a (List.mem_cons_of_mem _ ha) b (List.mem_cons_of_mem _ hb))
      h2.2 (by
        intro kv hkv
        rw [GoMap.get_set, if_neg (fun e => h1 kv (List.mem_cons_of_mem _ hkv) x List.mem_cons_self e.symm)]
        exact h3 kv (List.mem_cons_of_mem _ hkv)) k]
    by_cases hx : x.2 = k
    · have hf : l.find? (fun kv => kv.2 == k) = none := by
        rw [List.find?_eq_none]
        intro y hy hyk
        apply h2.1
        rw [hx]
        simp only [beq_iff_eq] at hyk
        rw [← hyk]
        exact List.mem_map_of_mem hy
      rw [hf, List.find?_cons]
      simp only [hx, beq_self_eq_true]
      rw [GoMap.get_set, if_pos rfl, h3 x List.mem_cons_self]
    · rw [List.find?_cons]
      have : (x.2 == k) = false := by simpa using hx
      simp only [this]
      rw [GoMap.get_set, if_neg hx]

theorem descriptions_disjoint :
    ∀ kv ∈ typeNameDescriptions, ∀ kv' ∈ typeNameDescriptions, kv.1 ≠ kv'.2 := by decide

theorem descriptions_nodup : (typeNameDescriptions.map (·.2)).Nodup := by decide

theorem find_perm_unique {l l' : List (Bytes × Bytes)} (hp : l.Perm l') (hn : (l.map (·.2)).Nodup)
    (k : Bytes) : l.find? (fun kv => kv.2 == k) = l'.find? (fun kv => kv.2 == k) := by
  have uniq : ∀ a ∈ l, ∀ b ∈ l, a.2 = b.2 → a = b := by
    clear hp
    induction l with
    | nil => simp
    | cons x l ih =>
      simp only [List.map_cons, List.nodup_cons] at hn
      intro a ha b hb hab
      rcases List.mem_cons.1 ha with ha1 | ha1 <;> rcases List.mem_cons.1 hb with hb1 | hb1
      · rw [ha1, hb1]
      · subst ha1; exact absurd (hab ▸ List.mem_map_of_mem hb1) hn.1
      · subst hb1; exact absurd (hab ▸ List.mem_map_of_mem ha1) hn.1
      · exact ih hn.2 a ha1 b hb1 hab
  cases h1 : l.find? (fun kv => kv.2 == k) with
  | none =>
    symm
    rw [List.find?_eq_none] at h1 ⊢
    intro x hx
    exact h1 x (hp.mem_iff.2 hx)
  | some a =>
    have ha := List.mem_of_find?_eq_some h1
    have hak := List.find?_some h1
    cases h2 : l'.find? (fun kv => kv.2 == k) with
    | none =>
      rw [List.find?_eq_none] at h2
      exact absurd hak (h2 a (hp.mem_iff.1 ha))
    | some b =>
      have hb := List.mem_of_find?_eq_some h2
      have hbk := List.find?_some h2
      simp only [beq_iff_eq] at hak hbk
      rw [uniq a ha b (hp.mem_iff.2 hb) (hak.trans hbk.symm)]

/-- The order in which `init` visits the descriptions does not matter. -/
theorem readConstIntIn_eq (l : List (Bytes × Bytes)) (h : l.Perm typeNameDescriptions) (s : Bytes) :
    readConstIntIn l s = readConstInt s := by
  unfold readConstInt readConstIntIn txnTypeMap
  have hd : ∀ kv ∈ l, ∀ kv' ∈ l, kv.1 ≠ kv'.2 := fun a ha b hb =>
    descriptions_disjoint a (h.mem_iff.1 ha) b (h.mem_iff.1 hb)
  have hn : (l.map (·.2)).Nodup := (h.map _).nodup_iff.2 descriptions_nodup
  rw [txnTypeDescribe_get (txnTypeIndex [] 0 txnTypeNames) l _ hd hn (fun _ _ => rfl),
    txnTypeDescribe_get (txnTypeIndex [] 0 txnTypeNames) typeNameDescriptions _
      descriptions_disjoint descriptions_nodup (fun _ _ => rfl),
    find_perm_unique h hn]

/-- All names of constants with their values. -/
def allConsts : List (Bytes × Nat) :=
  txnTypes.map (fun t => (t.2.1, t.1)) ++ txnTypes.map (fun t => (t.2.2, t.1)) ++
  onCompletions.map (fun t => (t.2, t.1))

theorem namedConst_iff (s : Bytes) (n : Nat) : NamedConst s n ↔ (s, n) ∈ allConsts := by
  unfold NamedConst allConsts
  simp only [List.mem_append, List.mem_map, Prod.mk.injEq]
  constructor
  · rintro (⟨x, h⟩ | ⟨x, h⟩ | h)
    · exact Or.inl (Or.inl ⟨_, h, rfl, rfl⟩)
    · exact Or.inl (Or.inr ⟨_, h, rfl, rfl⟩)
    · exact Or.inr ⟨_, h, rfl, rfl⟩
  · rintro ((⟨⟨a, b, c⟩, h, rfl, rfl⟩ | ⟨⟨a, b, c⟩, h, rfl, rfl⟩) | ⟨⟨a, b⟩, h, rfl, rfl⟩)
    · exact Or.inl ⟨_, h⟩
    · exact Or.inr (Or.inl ⟨_, h⟩)
    · exact Or.inr (Or.inr h)

/-- In a map with distinct keys, `get` is membership. -/
theorem GoMap.get_iff_mem {α : Type} (m : GoMap α) (hn : (m.map (·.1)).Nodup) (k : Bytes) (v : α) :
    m.get k = some v ↔ (k, v) ∈ m := by
  unfold GoMap.get
  induction m with
  | nil => simp
  | cons x m ih =>
    simp only [List.map_cons, List.nodup_cons] at hn
    rw [List.find?_cons]
    by_cases hx : x.1 = k
    · simp only [hx, beq_self_eq_true, Option.map_some, Option.some.injEq, List.mem_cons]
      constructor
      · rintro rfl
        exact Or.inl (by rw [← hx])
      · rintro (h | h)
        · rw [← h]
        · exact absurd (List.mem_map_of_mem h) (hx ▸ hn.1)
    · have : (x.1 == k) = false := by simpa using hx
      simp only [this, List.mem_cons]
      rw [ih hn.2]
      constructor
      · exact Or.inr
      · rintro (h | h)
        · exact absurd (by rw [← h]) hx
        · exact h

theorem GoMap.get_append {α : Type} (m m' : GoMap α) (k : Bytes) :
    GoMap.get (m ++ m') k = match m.get k with
      | some v => some v
      | none => m'.get k := by
  unfold GoMap.get
  rw [List.find?_append]
  cases List.find? (fun p => p.1 == k) m <;> rfl

theorem const_maps_nodup :
    ((txnTypeMap typeNameDescriptions ++ onCompletionMap).map (·.1)).Nodup := by decide +kernel

theorem const_maps_mem :
    (∀ p ∈ txnTypeMap typeNameDescriptions ++ onCompletionMap, p ∈ allConsts) ∧
    (∀ p ∈ allConsts, p ∈ txnTypeMap typeNameDescriptions ++ onCompletionMap) := by decide +kernel

theorem readConstInt_eq (s : Bytes) :
    readConstInt s = match GoMap.get (txnTypeMap typeNameDescriptions ++ onCompletionMap) s with
      | some n => some n
      | none => parseUint0 64 s := by
  rw [GoMap.get_append]
  unfold readConstInt readConstIntIn
  cases (txnTypeMap typeNameDescriptions).get s <;> rfl

theorem const_get_iff (s : Bytes) (n : Nat) :
    GoMap.get (txnTypeMap typeNameDescriptions ++ onCompletionMap) s = some n ↔ NamedConst s n := by
  rw [GoMap.get_iff_mem _ const_maps_nodup, namedConst_iff]
  exact ⟨const_maps_mem.1 _, const_maps_mem.2 _⟩

/-- No name of a constant is an integer literal. -/
theorem allConsts_not_literal : ∀ p ∈ allConsts, parseUint0 64 p.1 = none := by decide +kernel

theorem readConstInt_iff (s : Bytes) (n : Nat) :
    readConstInt s = some n ↔ NamedConst s n ∨ (IntLiteral s n ∧ n < 2 ^ 64) := by
  rw [readConstInt_eq, ← parseUint0_iff 64 (Nat.le_refl _), ← const_get_iff]
  cases h : GoMap.get (txnTypeMap typeNameDescriptions ++ onCompletionMap) s with
  | none => simp
  | some m =>
    have h1 := allConsts_not_literal _ ((namedConst_iff s m).1 ((const_get_iff s m).1 h))
    simp only at h1
    simp [h1]

end Teal
