import Verif.Spec.FreshValue
/-!
# Histories over possibly indeterminate values

Helper lemmas, no property statements.
-/
namespace Eni.Spec
variable {W : Type}

/-- the map with determinate values -/
def liftMap (m : FMap Bytes W) : FMap Bytes (Option W) := m.map fun kv => (kv.1, some kv.2)

theorem lift_lookup (m : FMap Bytes W) (k : Bytes) : (liftMap m).lookup k = (m.lookup k).map some := by
  induction m with
  | nil => rfl
  | cons kv m ih =>
    unfold FMap.lookup liftMap at *
    by_cases h : kv.1 = k
    · simp [h]
    · simp only [List.map_cons]
      rw [List.find?_cons_of_neg (by simpa using h), List.find?_cons_of_neg (by simpa using h)]
      exact ih

theorem lift_erase (m : FMap Bytes W) (k : Bytes) : (liftMap m).erase k = liftMap (m.erase k) := by
  unfold FMap.erase liftMap
  rw [List.filter_map]
  rfl

theorem sstep_lift (kd : VKind W) (m : FMap Bytes W) (op : SOp W)
    (h : (∃ c, kd = .cls c) ∨ ∀ k, op = .index k → m.lookup k ≠ none) :
    sstep kd.defaultInit (liftMap m) (liftOp op) = (liftMap (sstep kd.valueInit m op).1, liftRet (sstep kd.valueInit m op).2) := by
  cases op with
  | assign k v => simp only [liftOp, sstep, FMap.set, lift_erase, liftRet]; rfl
  | at_ k =>
    simp only [liftOp, sstep, lift_lookup]
    cases m.lookup k <;> rfl
  | erase k =>
    simp only [liftOp, sstep, lift_lookup, lift_erase, liftRet]
    cases m.lookup k <;> rfl
  | find k => simp only [liftOp, sstep, lift_lookup, liftRet]
  | size => simp [liftOp, sstep, liftRet, liftMap]
  | index k =>
    simp only [liftOp, sstep, FMap.insertNew, lift_lookup, liftRet]
    cases hl : m.lookup k with
    | some v => simp
    | none =>
      rcases h with ⟨c, rfl⟩ | h
      · simp [VKind.defaultInit, VKind.valueInit, liftMap]
      · exact absurd hl (h k rfl)

theorem sruns_lift (kd : VKind W) : ∀ (ops : List (SOp W)) (m : FMap Bytes W),
    ((∃ c, kd = .cls c) ∨ BoundReads kd.valueInit m ops) →
    sruns kd.defaultInit (liftMap m) (ops.map liftOp) =
      (liftMap (sruns kd.valueInit m ops).1, (sruns kd.valueInit m ops).2.map liftRet) := by
  intro ops
  induction ops with
  | nil => intro m _; rfl
  | cons op ops ih =>
    intro m h
    have h1 : (∃ c, kd = .cls c) ∨ ∀ k, op = .index k → m.lookup k ≠ none := by
      rcases h with h | h
      · exact Or.inl h
      · right
        rintro k rfl
        exact h.1
    have h2 : (∃ c, kd = .cls c) ∨ BoundReads kd.valueInit (sstep kd.valueInit m op).1 ops := by
      rcases h with h | h
      · exact Or.inl h
      · right
        cases op with
        | index k => exact h.2
        | _ => exact h
    simp only [List.map_cons, sruns, sstep_lift kd m op h1, ih _ h2]

theorem sruns_append {V : Type} (d : V) : ∀ (ops : List (SOp V)) (m : FMap Bytes V) (op : SOp V),
    sruns d m (ops ++ [op]) = ((sstep d (sruns d m ops).1 op).1, (sruns d m ops).2 ++ [(sstep d (sruns d m ops).1 op).2]) := by
  intro ops
  induction ops with
  | nil => intro m op; rfl
  | cons o ops ih => intro m op; simp only [List.cons_append, sruns, ih]

theorem skey_lift (op : SOp W) : skey (liftOp op) = skey op := by cases op <;> rfl

/-- without class type and without reads of unbound keys, the bound keys are the same -/
theorem sruns_unbound (kd : VKind W) : ∀ (ops : List (SOp W)) (m : FMap Bytes W) (m' : FMap Bytes (Option W)),
    (∀ k, (m'.lookup k).isSome = (m.lookup k).isSome) →
    ∀ k, ((sruns kd.defaultInit m' (ops.map liftOp)).1.lookup k).isSome = ((sruns kd.valueInit m ops).1.lookup k).isSome := by
  intro ops
  induction ops with
  | nil => intro m m' h k; exact h k
  | cons op ops ih =>
    intro m m' h k
    simp only [List.map_cons, sruns]
    refine ih _ _ ?_ k
    intro k
    cases op with
    | assign k0 v =>
      simp only [liftOp, sstep, FMap.lookup_set]
      split
      · rfl
      · exact h k
    | index k0 =>
      simp only [liftOp, sstep, FMap.lookup_insertNew]
      split
      · rfl
      · exact h k
    | erase k0 =>
      simp only [liftOp, sstep, FMap.lookup_erase]
      split
      · rfl
      · exact h k
    | at_ k0 => exact h k
    | find k0 => exact h k
    | size => exact h k

end Eni.Spec
