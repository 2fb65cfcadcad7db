import Verif.Model.PrintCount
import Verif.Spec.PrintCount
import Verif.Spec.Json
import Verif.Proofs.JsonPrint
/-!
# Printing with the counter
-/
namespace Eni
namespace PrintCount
open Spec Value

theorem printR_arr (vs : List Value) : printR (.arr vs) = (do let t ← elemsR 0 (vs.map printR); .ok (91 :: t ++ [93])) := by
  rw [printR]
  congr 2
  conv => rhs; rw [← List.attach_map_subtype_val vs, List.map_map]
  rfl

theorem printR_obj (m : Table (SEntry Value)) :
    printR (.obj m) = (do let t ← membersR true ((SMap.bindings m).map fun kv => (kv.1, printR kv.2)); .ok ([123, 10] ++ t ++ [10, 125])) := by
  rw [printR]
  congr 2
  unfold SMap.bindings
  rw [List.map_map]
  conv => rhs; rw [← List.attach_map_subtype_val m.entries, List.map_map]
  rfl

/-- All elements print: the loop prints them, unless the counter overflows. -/
theorem elemsR_ok : ∀ (vs : List Value) (i : Nat), (∀ v ∈ vs, printR v = .ok (print v)) → i < 2147483648 →
    elemsR i (vs.map printR) = if i + vs.length < 2147483648 then .ok (printElems i (vs.map print)) else .ub .overflow := by
  intro vs
  induction vs with
  | nil => intro i _ hi; simp [elemsR, printElems, hi]
  | cons v vs ih =>
    intro i h hi
    rw [List.map_cons, elemsR, incInt]
    by_cases h1 : i + 1 < 2147483648
    · rw [if_pos (by omega)]
      have h2 := ih (i + 1) (fun w hw => h w (List.mem_cons_of_mem _ hw)) h1
      rw [show ((i + 1 : Nat) : Int) = (i : Int) + 1 by omega] at h2
      simp only [Res.ok_bind, h v (List.mem_cons_self ..), h2, List.length_cons]
      by_cases h3 : i + 1 + vs.length < 2147483648
      · rw [if_pos h3, if_pos (c := i + (vs.length + 1) < 2147483648) (by omega)]
        simp [printElems]
      · rw [if_neg h3, if_neg (c := i + (vs.length + 1) < 2147483648) (by omega)]; rfl
    · rw [if_neg (c := (i : Int) + 1 < 2147483648) (by omega), if_neg (c := i + (v :: vs).length < 2147483648) (by simp; omega)]; rfl

/-- An element does not print: neither does the array. -/
theorem elemsR_ub : ∀ (vs : List Value) (i : Nat), (∀ v ∈ vs, printR v = .ok (print v) ∨ printR v = .ub .overflow) →
    (∃ v ∈ vs, printR v = .ub .overflow) → elemsR i (vs.map printR) = .ub .overflow := by
  intro vs
  induction vs with
  | nil => intro i _ h; simp at h
  | cons v vs ih =>
    intro i h hx
    rw [List.map_cons, elemsR, incInt]
    by_cases h1 : i + 1 < 2147483648
    · rw [if_pos (by omega)]
      simp only [Res.ok_bind]
      rcases h v (List.mem_cons_self ..) with h2 | h2
      · have hx' : ∃ w ∈ vs, printR w = .ub .overflow := by
          obtain ⟨w, hw, e⟩ := hx
          rcases List.mem_cons.mp hw with rfl | hw
          · rw [h2] at e; cases e
          · exact ⟨w, hw, e⟩
        have h3 := ih (i + 1) (fun w hw => h w (List.mem_cons_of_mem _ hw)) hx'
        rw [show ((i + 1 : Nat) : Int) = (i : Int) + 1 by omega] at h3
        simp only [h2, Res.ok_bind, h3]
        rfl
      · rw [h2]; rfl
    · rw [if_neg (by omega)]; rfl

theorem membersR_ok : ∀ (ms : List (Bytes × Value)) (first : Bool), (∀ kv ∈ ms, printR kv.2 = .ok (print kv.2)) →
    membersR first (ms.map fun kv => (kv.1, printR kv.2)) = .ok (printMembers first (ms.map fun kv => (kv.1, print kv.2))) := by
  intro ms
  induction ms with
  | nil => intro first _; rfl
  | cons kv ms ih =>
    intro first h
    rw [List.map_cons, membersR, h kv (List.mem_cons_self ..)]
    simp only [Res.ok_bind, ih false (fun w hw => h w (List.mem_cons_of_mem _ hw))]
    rfl

theorem membersR_ub : ∀ (ms : List (Bytes × Value)) (first : Bool), (∀ kv ∈ ms, printR kv.2 = .ok (print kv.2) ∨ printR kv.2 = .ub .overflow) →
    (∃ kv ∈ ms, printR kv.2 = .ub .overflow) → membersR first (ms.map fun kv => (kv.1, printR kv.2)) = .ub .overflow := by
  intro ms
  induction ms with
  | nil => intro _ _ h; simp at h
  | cons kv ms ih =>
    intro first h hx
    rw [List.map_cons, membersR]
    rcases h kv (List.mem_cons_self ..) with h2 | h2
    · have hx' : ∃ w ∈ ms, printR w.2 = .ub .overflow := by
        obtain ⟨w, hw, e⟩ := hx
        rcases List.mem_cons.mp hw with rfl | hw
        · rw [h2] at e; cases e
        · exact ⟨w, hw, e⟩
      simp only [h2, Res.ok_bind, ih false (fun w hw => h w (List.mem_cons_of_mem _ hw)) hx']
      rfl
    · rw [h2]; rfl

/-- Both outcomes. -/
theorem printR_iff (v : Value) :
    (ArraysBelow 2147483648 v ∧ printR v = .ok (print v)) ∨ (¬ ArraysBelow 2147483648 v ∧ printR v = .ub .overflow) := by
  match v with
  | .undef => exact .inl ⟨.undef, by rw [printR, print]⟩
  | .int z => exact .inl ⟨.int, by rw [printR, print]⟩
  | .bool b => exact .inl ⟨.bool, by cases b <;> rw [printR, print]⟩
  | .str s => exact .inl ⟨.str, by rw [printR, print]⟩
  | .arr vs =>
    have ih : ∀ v ∈ vs, (ArraysBelow 2147483648 v ∧ printR v = .ok (print v)) ∨ (¬ ArraysBelow 2147483648 v ∧ printR v = .ub .overflow) :=
      fun v hv => printR_iff v
    rw [printR_arr, Json.print_arr]
    by_cases hx : ∃ v ∈ vs, printR v = .ub .overflow
    · refine .inr ⟨?_, ?_⟩
      · obtain ⟨v, hv, e⟩ := hx
        intro h
        cases h with
        | arr _ h =>
          rcases ih v hv with ⟨-, h2⟩ | ⟨h2, -⟩
          · rw [h2] at e; cases e
          · exact h2 (h v hv)
      · rw [show (0 : Int) = ((0 : Nat) : Int) from rfl, elemsR_ub vs 0 (fun v hv => (ih v hv).imp And.right And.right) hx]; rfl
    · have hall : ∀ v ∈ vs, ArraysBelow 2147483648 v ∧ printR v = .ok (print v) := fun v hv =>
        (ih v hv).resolve_right fun h => hx ⟨v, hv, h.2⟩
      rw [show (0 : Int) = ((0 : Nat) : Int) from rfl, elemsR_ok vs 0 (fun v hv => (hall v hv).2) (by decide)]
      by_cases hl : 0 + vs.length < 2147483648
      · exact .inl ⟨.arr (by omega) fun v hv => (hall v hv).1, by rw [if_pos hl]; rfl⟩
      · refine .inr ⟨fun h => ?_, by rw [if_neg hl]; rfl⟩
        cases h with
        | arr h _ => omega
  | .obj m =>
    have ih : ∀ kv ∈ SMap.bindings m, (ArraysBelow 2147483648 kv.2 ∧ printR kv.2 = .ok (print kv.2)) ∨
        (¬ ArraysBelow 2147483648 kv.2 ∧ printR kv.2 = .ub .overflow) := by
      intro kv hkv
      obtain ⟨e, he, rfl⟩ := List.mem_map.mp hkv
      have := sizeOf_entry he
      exact printR_iff e.val
    rw [printR_obj, Json.print_obj]
    by_cases hx : ∃ kv ∈ SMap.bindings m, printR kv.2 = .ub .overflow
    · refine .inr ⟨?_, by rw [membersR_ub _ _ (fun kv h => (ih kv h).imp And.right And.right) hx]; rfl⟩
      obtain ⟨v, hv, e⟩ := hx
      intro h
      cases h with
      | obj h =>
        rcases ih v hv with ⟨-, h2⟩ | ⟨h2, -⟩
        · rw [h2] at e; cases e
        · exact h2 (h v hv)
    · have hall : ∀ kv ∈ SMap.bindings m, ArraysBelow 2147483648 kv.2 ∧ printR kv.2 = .ok (print kv.2) := fun v hv =>
        (ih v hv).resolve_right fun h => hx ⟨v, hv, h.2⟩
      refine .inl ⟨.obj fun kv h => (hall kv h).1, ?_⟩
      rw [membersR_ok _ _ (fun kv h => (hall kv h).2)]
      rfl
termination_by sizeOf v
decreasing_by
  · have := List.sizeOf_lt_of_mem hv; simp; omega
  · simp; omega

/-- Every array in a JSON value has at most `n` elements. -/
inductive JUpTo (n : Nat) : JV → Prop
  | int {z} : JUpTo n (.int z)
  | bool {b} : JUpTo n (.bool b)
  | str {s} : JUpTo n (.str s)
  | arr {js} : js.length ≤ n → (∀ j ∈ js, JUpTo n j) → JUpTo n (.arr js)
  | obj {ms} : (∀ kj ∈ ms, JUpTo n kj.2) → JUpTo n (.obj ms)

theorem jtext_upTo (n : Nat) {t : Bytes} {j : JV} (h : JText t j) : t.length ≤ n → JUpTo n j := by
  refine JText.rec (motive_1 := fun t j _ => t.length ≤ n → JUpTo n j)
    (motive_2 := fun t js _ => t.length ≤ n → js.length ≤ t.length + 1 ∧ ∀ j ∈ js, JUpTo n j)
    (motive_3 := fun t ms _ => t.length ≤ n → ∀ kj ∈ ms, JUpTo n kj.2) ?_ ?_ ?_ ?_ ?_ ?_ ?_ ?_ ?_ ?_ ?_ ?_ h
  · exact fun _ => .bool
  · exact fun _ => .bool
  · exact fun _ _ => .int
  · exact fun _ _ => .str
  · exact fun _ _ => .arr (Nat.zero_le _) (by simp)
  · intro t js _ ih hn
    simp only [List.length_cons, List.length_append] at hn
    obtain ⟨h1, h2⟩ := ih (by omega)
    exact .arr (by omega) h2
  · exact fun _ _ => .obj (by simp)
  · intro t ms _ ih hn
    simp only [List.length_cons, List.length_append] at hn
    exact .obj (ih (by omega))
  · intro w t w' j _ _ _ ih hn
    simp only [List.length_append] at hn
    refine ⟨by simp, ?_⟩
    intro x hx
    cases List.mem_singleton.mp hx
    exact ih (by omega)
  · intro w t w' j r js _ _ _ _ ih ih' hn
    simp only [List.length_cons, List.length_append] at hn
    obtain ⟨h1, h2⟩ := ih' (by omega)
    refine ⟨by simp; omega, ?_⟩
    intro x hx
    rcases List.mem_cons.mp hx with rfl | hx
    · exact ih (by omega)
    · exact h2 x hx
  · intro w b k w1 w2 t w3 j _ _ _ _ _ _ ih hn x hx
    simp only [List.length_cons, List.length_append] at hn
    cases List.mem_singleton.mp hx
    exact ih (by omega)
  · intro w b k w1 w2 t w3 j r ms _ _ _ _ _ _ _ ih ih' hn x hx
    simp only [List.length_cons, List.length_append] at hn
    rcases List.mem_cons.mp hx with rfl | hx
    · exact ih (by omega)
    · exact ih' (by omega) x hx

theorem shows_below {n : Nat} {v : Value} {j : JV} (h : Shows v j) (hj : JUpTo n j) : ArraysBelow (n + 1) v := by
  induction h with
  | int => exact .int
  | bool => exact .bool
  | str => exact .str
  | @arr vs js hl hs ih =>
    cases hj with
    | arr h1 h2 =>
      refine .arr (by omega) fun v hv => ?_
      obtain ⟨i, hi, e⟩ := List.getElem_of_mem hv
      exact ih i v (js[i]'(by omega)) (by rw [← e]; exact List.getElem?_eq_getElem hi) (List.getElem?_eq_getElem (by omega))
        (h2 _ (List.getElem_mem _))
  | @obj m ms _ hp hf hn _ hs ih =>
    cases hj with
    | obj h1 =>
      refine .obj fun kv hkv => ?_
      have hk := hf kv.1 kv.2 hkv
      cases hlm : lastMember ms kv.1 with
      | none => have := hn _ hlm; rw [hk] at this; cases this
      | some j =>
        refine ih kv.1 j kv.2 hlm hk (h1 (kv.1, j) ?_)
        have := FMap.mem_of_lookup hlm
        simpa using this

end PrintCount
end Eni
