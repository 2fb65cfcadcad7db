/-!
# Specification: finite maps

A finite map is an association list; the functions below are the textbook operations. `lookup` is the only
observation besides the number of bindings.
-/
namespace Eni.Spec

/-- A finite map from `K` to `V`. -/
abbrev FMap (K V : Type) := List (K × V)

namespace FMap
variable {K V : Type} [DecidableEq K]

/-- The value bound to `k`. -/
def lookup (m : FMap K V) (k : K) : Option V := (m.find? fun kv => kv.1 = k).map Prod.snd

/-- Removes the binding of `k`. -/
def erase (m : FMap K V) (k : K) : FMap K V := m.filter fun kv => kv.1 ≠ k

/-- Binds `k` to `v`, replacing an earlier binding. -/
def set (m : FMap K V) (k : K) (v : V) : FMap K V := (k, v) :: m.erase k

/-- Binds `k` to `d` only if `k` is not bound. -/
def insertNew (m : FMap K V) (k : K) (d : V) : FMap K V := if (m.lookup k).isSome then m else (k, d) :: m

/-- Every key is bound at most once. -/
def Functional (m : FMap K V) : Prop := (m.map Prod.fst).Nodup

/-! Laws of the specification (sanity checks of the definitions above). -/

theorem lookup_set (m : FMap K V) (k k' : K) (v : V) :
    (m.set k v).lookup k' = if k' = k then some v else m.lookup k' := by
  unfold lookup set erase
  by_cases h : k' = k
  · subst h; simp
  · have h2 : ¬ k = k' := fun e => h e.symm
    rw [List.find?_cons_of_neg (by simpa using h2), if_neg h, List.find?_filter]
    congr 2
    funext kv
    by_cases hk : kv.1 = k' <;> simp [hk]
    exact h

theorem lookup_erase (m : FMap K V) (k k' : K) :
    (m.erase k).lookup k' = if k' = k then none else m.lookup k' := by
  unfold lookup erase
  by_cases h : k' = k
  · subst h
    rw [if_pos rfl, List.find?_filter]
    simp
  · rw [if_neg h, List.find?_filter]
    congr 2
    funext kv
    by_cases hk : kv.1 = k' <;> simp [hk]
    exact h

theorem lookup_insertNew (m : FMap K V) (k k' : K) (d : V) :
    (m.insertNew k d).lookup k' = if k' = k then some ((m.lookup k).getD d) else m.lookup k' := by
  unfold insertNew
  cases h : m.lookup k with
  | some v =>
    by_cases hk : k' = k
    · subst hk; simp [h]
    · simp [hk]
  | none =>
    by_cases hk : k' = k
    · subst hk; simp [lookup]
    · have h2 : ¬ k = k' := fun e => hk e.symm
      simp only [lookup, Option.isSome_none, Bool.false_eq_true, if_false, if_neg hk]
      rw [List.find?_cons_of_neg (by simpa using h2)]

theorem Functional.erase {m : FMap K V} (h : m.Functional) (k : K) : (m.erase k).Functional :=
  List.Nodup.sublist (List.filter_sublist.map _) h

theorem lookup_none_iff {m : FMap K V} {k : K} : m.lookup k = none ↔ ∀ v, (k, v) ∉ m := by
  unfold lookup
  simp only [Option.map_eq_none_iff, List.find?_eq_none, decide_eq_true_eq]
  constructor
  · intro h v hm; exact h _ hm rfl
  · rintro h ⟨a, b⟩ hm rfl; exact h b hm

theorem mem_of_lookup {m : FMap K V} {k : K} {v : V} (h : m.lookup k = some v) : (k, v) ∈ m := by
  unfold lookup at h
  obtain ⟨⟨a, b⟩, hf, rfl⟩ := Option.map_eq_some_iff.mp h
  have := List.find?_some hf
  simp at this
  subst this
  exact List.mem_of_find?_eq_some hf

theorem lookup_of_mem {m : FMap K V} (hf : m.Functional) {k : K} {v : V} (h : (k, v) ∈ m) : m.lookup k = some v := by
  induction m with
  | nil => exact absurd h (by simp)
  | cons a m ih =>
    obtain ⟨k1, v1⟩ := a
    simp only [Functional, List.map_cons, List.nodup_cons] at hf
    rcases List.mem_cons.mp h with h | h
    · cases h; simp [lookup]
    · have hne : k1 ≠ k := by
        rintro rfl
        exact hf.1 (List.mem_map.mpr ⟨(k1, v), h, rfl⟩)
      have := ih hf.2 h
      simp only [lookup] at this ⊢
      rw [List.find?_cons_of_neg (by simpa using hne)]
      exact this

theorem Functional.set {m : FMap K V} (h : m.Functional) (k : K) (v : V) : (m.set k v).Functional := by
  unfold FMap.set Functional
  simp only [List.map_cons, List.nodup_cons]
  refine ⟨?_, h.erase k⟩
  intro hm
  obtain ⟨⟨a, b⟩, h1, h2⟩ := List.mem_map.mp hm
  simp [FMap.erase] at h1
  exact h1.2 h2

end FMap
end Eni.Spec
