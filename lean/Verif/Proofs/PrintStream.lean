import Verif.Spec.PrintStream
import Verif.Proofs.JsonPrint
/-!
# Printing to a stream
-/
namespace Eni
namespace Ostream
open Spec

/-- Text of a piece on a fresh stream. -/
def plain : Out → Bytes
  | .ch c => [c]
  | .txt s => s
  | .num z => Value.s256Print z

theorem items_arr (vs : List Value) : items (.arr vs) = .ch 91 :: elemItems 0 (vs.map items) ++ [.ch 93] := by
  rw [items]
  congr 3
  conv => rhs; rw [← List.attach_map_subtype_val vs, List.map_map]
  rfl

theorem items_obj (m : Table (SEntry Value)) :
    items (.obj m) = [.ch 123, .ch 10] ++ memberItems true ((SMap.bindings m).map fun kv => (kv.1, items kv.2)) ++ [.ch 10, .ch 125] := by
  rw [items]
  congr 3
  unfold SMap.bindings
  rw [List.map_map]
  conv => rhs; rw [← List.attach_map_subtype_val m.entries, List.map_map]
  rfl

theorem charItems_text (c : UInt8) : (charItems c).flatMap plain = Value.printChar c := by
  unfold charItems Value.printChar
  split
  · rfl
  · split <;> rfl

theorem elemItems_text : ∀ (vs : List Value) (i : Nat), (∀ v ∈ vs, (items v).flatMap plain = Value.print v) →
    (elemItems i (vs.map items)).flatMap plain = Value.printElems i (vs.map Value.print) := by
  intro vs
  induction vs with
  | nil => intro i _; rfl
  | cons v vs ih =>
    intro i h
    rw [List.map_cons, elemItems, List.flatMap_append, List.flatMap_append, h v (List.mem_cons_self ..),
      ih (i + 1) fun w hw => h w (List.mem_cons_of_mem _ hw)]
    rw [List.map_cons, Value.printElems]
    congr 2
    split <;> rfl

theorem memberItems_text : ∀ (ms : List (Bytes × Value)) (first : Bool), (∀ kv ∈ ms, (items kv.2).flatMap plain = Value.print kv.2) →
    (memberItems first (ms.map fun kv => (kv.1, items kv.2))).flatMap plain =
      Value.printMembers first (ms.map fun kv => (kv.1, Value.print kv.2)) := by
  intro ms
  induction ms with
  | nil => intro i _; rfl
  | cons kv ms ih =>
    intro first h
    rw [List.map_cons, memberItems]
    simp only [List.flatMap_append, h kv (List.mem_cons_self ..), ih false fun w hw => h w (List.mem_cons_of_mem _ hw)]
    rw [List.map_cons, Value.printMembers]
    cases first <;> simp [plain]

theorem items_text (v : Value) : (items v).flatMap plain = Value.print v := by
  match v with
  | .undef => rw [items, Value.print]; rfl
  | .int z => rw [items, Value.print]; simp [plain]
  | .bool b => cases b <;> rw [items, Value.print] <;> rfl
  | .str s =>
    rw [items, Value.print, Value.printStr]
    rw [List.flatMap_append, List.flatMap_cons, List.flatMap_assoc]
    simp only [charItems_text]
    simp [plain]
  | .arr vs =>
    have ih : ∀ v ∈ vs, (items v).flatMap plain = Value.print v := fun v hv => items_text v
    rw [items_arr, Json.print_arr, List.flatMap_append, List.flatMap_cons, elemItems_text vs 0 ih]
    simp [plain]
  | .obj m =>
    have ih : ∀ kv ∈ SMap.bindings m, (items kv.2).flatMap plain = Value.print kv.2 := by
      intro kv hkv
      obtain ⟨e, he, rfl⟩ := List.mem_map.mp hkv
      have := Value.sizeOf_entry he
      exact items_text e.val
    rw [items_obj, Json.print_obj, List.flatMap_append, List.flatMap_append, memberItems_text _ true ih]
    simp [plain]
termination_by sizeOf v
decreasing_by
  · have := List.sizeOf_lt_of_mem hv
    simp
    omega
  · simp
    omega

/-- Pieces that are not numbers. -/
def isText : Out → Prop
  | .num _ => False
  | _ => True

theorem charItems_isText (c : UInt8) : ∀ o ∈ charItems c, isText o := by
  unfold charItems
  split
  · intro o ho; simp at ho; rcases ho with rfl | rfl <;> trivial
  · split
    · intro o ho; simp at ho; rcases ho with rfl | rfl <;> trivial
    · intro o ho; simp at ho; subst ho; trivial

theorem elemItems_isText : ∀ (vs : List Value) (i : Nat), (∀ v ∈ vs, ∀ o ∈ items v, isText o) → ∀ o ∈ elemItems i (vs.map items), isText o := by
  intro vs
  induction vs with
  | nil => intro i _ o ho; cases ho
  | cons v vs ih =>
    intro i h o ho
    rw [List.map_cons, elemItems] at ho
    rcases List.mem_append.mp ho with ho | ho
    · rcases List.mem_append.mp ho with ho | ho
      · split at ho
        · simp at ho; subst ho; trivial
        · cases ho
      · exact h v (List.mem_cons_self ..) o ho
    · exact ih (i + 1) (fun w hw => h w (List.mem_cons_of_mem _ hw)) o ho

theorem memberItems_isText : ∀ (ms : List (Bytes × Value)) (first : Bool), (∀ kv ∈ ms, ∀ o ∈ items kv.2, isText o) →
    ∀ o ∈ memberItems first (ms.map fun kv => (kv.1, items kv.2)), isText o := by
  intro ms
  induction ms with
  | nil => intro i _ o ho; cases ho
  | cons kv ms ih =>
    intro first h o ho
    rw [List.map_cons, memberItems] at ho
    simp only [List.mem_append] at ho
    rcases ho with (((ho | ho) | ho) | ho) | ho
    · split at ho
      · simp at ho; subst ho; trivial
      · cases ho
    · simp at ho; subst ho; trivial
    · simp at ho; subst ho; trivial
    · exact h kv (List.mem_cons_self ..) o ho
    · exact ih false (fun w hw => h w (List.mem_cons_of_mem _ hw)) o ho

theorem noNumber_isText {v : Value} (h : NoNumber v) : ∀ o ∈ items v, isText o := by
  induction h with
  | undef => rw [items]; intro o ho; cases ho
  | @bool b => cases b <;> rw [items] <;> (intro o ho; simp at ho; subst ho; trivial)
  | @str s =>
    rw [items]
    intro o ho
    rcases List.mem_append.mp ho with ho | ho
    · rcases List.mem_cons.mp ho with rfl | ho
      · trivial
      · obtain ⟨c, -, hc⟩ := List.mem_flatMap.mp ho
        exact charItems_isText c o hc
    · simp at ho; subst ho; trivial
  | @arr vs _ ih =>
    rw [items_arr]
    intro o ho
    rcases List.mem_append.mp ho with ho | ho
    · rcases List.mem_cons.mp ho with rfl | ho
      · trivial
      · exact elemItems_isText vs 0 ih o ho
    · simp at ho; subst ho; trivial
  | @obj m _ ih =>
    rw [items_obj]
    intro o ho
    rcases List.mem_append.mp ho with ho | ho
    · rcases List.mem_append.mp ho with ho | ho
      · simp at ho; rcases ho with rfl | rfl <;> trivial
      · exact memberItems_isText _ true ih o ho
    · simp at ho; rcases ho with rfl | rfl <;> trivial

theorem pad_zero {st : Stream} (h : st.width = 0) (t : Bytes) : pad st t = t := by
  unfold pad; rw [h]; cases st.left <;> simp

theorem emit_plain : ∀ (os : List Out) (st : Stream), st.good = true → st.width = 0 → (∀ o ∈ os, outText st o = some (plain o)) →
    emit st os = ({ st with out := st.out ++ os.flatMap plain }, true) := by
  intro os
  induction os with
  | nil => intro st _ _ _; simp [emit]
  | cons o os ih =>
    intro st hg hw h
    have e : put st o = some { st with out := st.out ++ plain o } := by
      unfold put
      rw [h o (List.mem_cons_self ..)]
      simp only [Option.bind_eq_bind, Option.bind_some, hg, if_true, pad_zero hw]
      rw [← hw]
    rw [emit, e]
    simp only
    rw [ih]
    · simp [List.append_assoc]
    · exact hg
    · exact hw
    · intro p hp
      have := h p (List.mem_cons_of_mem _ hp)
      cases p <;> exact this

theorem outText_plain {st : Stream} (hb : st.base = .dec) (hp : st.showpos = false) (o : Out) : outText st o = some (plain o) := by
  cases o with
  | num z => simp [outText, numText, hb, hp, plain]
  | _ => rfl

theorem outText_isText {st : Stream} {o : Out} (h : isText o) : outText st o = some (plain o) := by
  cases o with
  | num z => cases h
  | _ => rfl

/-- The first piece and the others. -/
theorem firstPiece_items {v : Value} {n : Nat} (h : firstPiece v = some n) : ∃ o os, items v = o :: os ∧ (plain o).length = n := by
  cases v with
  | undef => cases h
  | int z =>
    cases h
    exact ⟨.num z, [], by rw [items], by rw [Value.print]; rfl⟩
  | bool b => cases b <;> cases h <;> exact ⟨_, _, by rw [items], rfl⟩
  | str s => cases h; exact ⟨_, _, by rw [items]; rfl, rfl⟩
  | arr vs => cases h; exact ⟨_, _, by rw [items_arr]; rfl, rfl⟩
  | obj m => cases h; exact ⟨_, _, by rw [items_obj]; rfl, rfl⟩

end Ostream
end Eni
