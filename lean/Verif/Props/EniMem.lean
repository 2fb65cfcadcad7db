import Verif.Proofs.EniMem
import Verif.Props.Reverse
/-!
# The entry points in memory: C93, C94
-/
namespace Eni.Props
open Spec Owner

variable {S : Type}

/-- the argument text `["x"]` of the examples -/
theorem text_x : JText [91, 34, 120, 34, 93] (.arr [.str [120]]) :=
  .arr (Elems.one (w := []) (w' := []) (by simp [WS]) (.str (.raw (by decide) (by decide) .nil)) (by simp [WS]))

theorem layout_x : Json.Layout.Good ⟨100, 0, 50⟩ := by simp [Json.Layout.Good]

/-- the text of a list of results -/
theorem sc_text (outs : List Sc) : cstr (Value.print (.arr (outs.map Sc.val))) = Value.print (.arr (outs.map Sc.val)) ∧
    (InRange (.arr (outs.map scJV)) → JText (Value.print (.arr (outs.map Sc.val))) (.arr (outs.map scJV))) ∧ 0 ∉ Value.print (.arr (outs.map Sc.val)) := by
  have hs : Shows (.arr (outs.map Sc.val)) (.arr (outs.map scJV)) := by
    refine .arr (by simp) ?_
    intro i v j h1 h2
    rw [List.getElem?_map, Option.map_eq_some_iff] at h1 h2
    obtain ⟨a, ha, rfl⟩ := h1
    obtain ⟨b, hb, rfl⟩ := h2
    rw [ha] at hb
    cases hb
    cases a
    · exact .bool
    · exact .int
    · exact .str
  have hf : ObjFree (.arr (outs.map scJV)) := by
    refine .arr ?_
    intro j hj
    obtain ⟨a, _, rfl⟩ := List.mem_map.mp hj
    cases a
    · exact .bool
    · exact .int
    · exact .str
  exact ⟨cstr_of_clean (C62_object_free_partial hs hf), fun hr => Json.print_text hs (Json.ObjFree.noMembers hf) hr,
    fun h => absurd (C62_object_free_partial hs hf _ h) (by decide)⟩

theorem shows_part : ∀ (p : Path) {v : Value} {j : JV}, Shows v j →
    (∃ x w, j.part p = .ok x ∧ fetchV v p = .ok w ∧ Shows w x) ∨ (∃ e, j.part p = .throw e ∧ fetchV v p = .throw e) ∨
      (j.part p = .ub .badUnion ∧ fetchV v p = .ub .badUnion) := by
  intro p
  induction p with
  | nil => intro v j H; exact .inl ⟨j, v, rfl, rfl, H⟩
  | cons s ps ih =>
    intro v j H
    cases s with
    | elem i =>
      cases H with
      | @arr vs js hl hi =>
        cases hj : js[i]? with
        | some x =>
          obtain ⟨w, hw⟩ : ∃ w, vs[i]? = some w := by
            have := (List.getElem?_eq_some_iff.mp hj).1
            exact ⟨_, List.getElem?_eq_getElem (by omega)⟩
          rcases ih (hi i w x hw hj) with ⟨y, u, h1, h2, h3⟩ | ⟨e, h1, h2⟩ | ⟨h1, h2⟩
          · exact .inl ⟨y, u, by simp [JV.part, hj, h1], by simp [fetchV, hw, h2], h3⟩
          · exact .inr (.inl ⟨e, by simp [JV.part, hj, h1], by simp [fetchV, hw, h2]⟩)
          · exact .inr (.inr ⟨by simp [JV.part, hj, h1], by simp [fetchV, hw, h2]⟩)
        | none =>
          have hw : vs[i]? = none := by
            rw [List.getElem?_eq_none_iff] at hj ⊢
            omega
          exact .inr (.inl ⟨.invalidVectorIndex, by simp [JV.part, hj], by simp [fetchV, hw]⟩)
      | _ => exact .inr (.inr ⟨by simp [JV.part], by simp [fetchV]⟩)
    | mem k =>
      cases H with
      | @obj m ms _ _ _ h4 h5 h6 =>
        cases hj : lastMember ms k with
        | some x =>
          obtain ⟨w, hw⟩ := h5 k x hj
          rcases ih (h6 k x w hj hw) with ⟨y, u, h1, h2, h3⟩ | ⟨e, h1, h2⟩ | ⟨h1, h2⟩
          · exact .inl ⟨y, u, by simp [JV.part, hj, h1], by simp [fetchV, SMap.at_, hw, h2], h3⟩
          · exact .inr (.inl ⟨e, by simp [JV.part, hj, h1], by simp [fetchV, SMap.at_, hw, h2]⟩)
          · exact .inr (.inr ⟨by simp [JV.part, hj, h1], by simp [fetchV, SMap.at_, hw, h2]⟩)
        | none => exact .inr (.inl ⟨.invalidStringMapKey, by simp [JV.part, hj], by simp [fetchV, SMap.at_, h4 k hj]⟩)
      | _ => exact .inr (.inr ⟨by simp [JV.part], by simp [fetchV]⟩)

theorem shows_reads {α : Type} {v : Value} {j : JV} (H : Shows v j) : ∀ R : Rd α, R.runV v = reads j R := by
  intro R
  induction R with
  | done r => rfl
  | str p k ih | int p k ih | bool p k ih =>
    simp only [Rd.runV, reads]
    rcases shows_part p H with ⟨x, w, h1, h2, h3⟩ | ⟨e, h1, h2⟩ | ⟨h1, h2⟩
    · rw [h1, h2]
      cases h3 <;> simp only [Res.ok_bind, ih]
    · rw [h1, h2]; rfl
    · rw [h1, h2]; rfl
  | type p k ih =>
    simp only [Rd.runV, reads]
    rcases shows_part p H with ⟨x, w, h1, h2, h3⟩ | ⟨e, h1, h2⟩ | ⟨h1, h2⟩
    · rw [h1, h2]
      cases h3 <;> simp only [Res.ok_bind, ih, tyOf, JV.ty]
    · rw [h1, h2]; rfl
    · rw [h1, h2]; rfl
  | size p k ih =>
    simp only [Rd.runV, reads]
    rcases shows_part p H with ⟨x, w, h1, h2, h3⟩ | ⟨e, h1, h2⟩ | ⟨h1, h2⟩
    · rw [h1, h2]
      cases h3 with
      | arr hl _ => simp only [Res.ok_bind, ih, hl]
      | _ => rfl
    · rw [h1, h2]; rfl
    · rw [h1, h2]; rfl

/-! ### C93 -/

/-- C93: for every operation and every text that denotes an array, the entry points use memory properly and return what the hooks make of the array:
`OP_run` the printed results, the null pointer or an exception, `OP_gas` a number or an exception. Undefined behaviour of a hook (a number read as a
string) remains what it is. -/
theorem C93_calls (grow : Nat → Bool) (L : Json.Layout) (hL : L.Good) (O : OpM S) {w t r : Bytes} {js : List JV} (hw : WS w) (ht : JText t (.arr js))
    (h0 : 0 ∉ w ++ (t ++ r)) :
    (runM grow L O (w ++ (t ++ r)) >>= fun x => .ok x.2) = (expectRun O (.arr js) >>= fun x => .ok (retMap asText x)) ∧
    (gasM grow L O (w ++ (t ++ r)) >>= fun x => .ok x.2) = expectGas O (.arr js) := by
  obtain ⟨h, cb, a, g, e, hs, st, _⟩ := parse_mem_text grow hw ht (r := r) (by simp) (.inl hL)
  have hz : cstr (w ++ (t ++ r)) = w ++ (t ++ r) := cstr_noNul h0
  have h1 := call_sim O (s := w ++ (t ++ r)) (l := Left.init) (hz ▸ e) hs st rfl
  have h2 := gas_sim O (s := w ++ (t ++ r)) (l := Left.init) (hz ▸ e) hs st rfl
  rw [show ∀ s, runAt grow L O Left.init s = runM grow L O s from fun _ => rfl] at h1
  rw [show ∀ s, gasAt grow L O Left.init s = gasM grow L O s from fun _ => rfl] at h2
  constructor
  · unfold expectRun
    revert h1
    cases hr : reads (.arr js) O.parse with
    | ok x =>
      obtain ⟨y, b⟩ := x
      cases b with
      | false =>
        rintro ⟨l, e, _⟩
        simp [e, retMap, asText]
      | true =>
        rcases hrun : O.run y with ⟨outs, res⟩
        simp only [hrun]
        cases res with
        | ok b =>
          cases b with
          | false =>
            rintro ⟨l, e, _⟩
            simp [e, retMap, asText]
          | true =>
            rintro ⟨l, e, _⟩
            simp [e, retMap, asText, (sc_text outs).1]
        | throw x =>
          rintro ⟨l, e, _⟩
          simp [e, retMap]
        | ub u => intro h1; simp only at h1 ⊢; rw [h1]; rfl
        | diverge => intro h1; simp only at h1 ⊢; rw [h1]; rfl
        | exit c => intro h1; simp only at h1 ⊢; rw [h1]; rfl
    | throw x =>
      rintro ⟨l, e, _⟩
      simp [e, retMap]
    | ub u => intro h1; simp only at h1 ⊢; rw [h1]; rfl
    | diverge => intro h1; simp only at h1 ⊢; rw [h1]; rfl
    | exit c => intro h1; simp only at h1 ⊢; rw [h1]; rfl
  · unfold expectGas
    revert h2
    cases hr : (reads (.arr js) O.parse >>= fun x => if x.2 then O.gas x.1 else .ok 1500) with
    | ok x =>
      rintro ⟨l, e, _⟩
      simp [e]
    | throw x =>
      rintro ⟨l, e, _⟩
      simp [e]
    | ub u => intro h2; simp only at h2 ⊢; rw [h2]; rfl
    | diverge => intro h2; simp only at h2 ⊢; rw [h2]; rfl
    | exit c => intro h2; simp only at h2 ⊢; rw [h2]; rfl

example := C93_calls (fun _ => true) ⟨100, 0, 50⟩ layout_x reverseM (w := [32]) (r := [33]) (by simp [WS]) text_x (by decide)

/-- C93, the text handed out is a JSON text of the results. -/
theorem C93_text (outs : List Sc) (hr : InRange (.arr (outs.map scJV))) : ∃ t, asText (some outs) = some t ∧ JText t (.arr (outs.map scJV)) ∧ 0 ∉ t := by
  refine ⟨_, rfl, (sc_text outs).2.1 hr, fun h => ?_⟩
  exact (sc_text outs).2.2 h

example := C93_text [.str [120, 0], .int (-5), .bool true] (.arr (by
  simp only [scJV, List.map_cons, List.map_nil, List.forall_mem_cons]
  exact ⟨.str, .int (by decide), .bool, by simp⟩))

/-- C93, the other texts: one that is not accepted ends the process with 87; one that denotes something else than an array is undefined behaviour. -/
theorem C93_others (grow : Nat → Bool) (L : Json.Layout) (O : OpM S) :
    (∀ s h cb, 0 ∉ s → parseM grow L s = .ok (h, cb, false) → runM grow L O s = .exit 87 ∧ gasM grow L O s = .exit 87) ∧
    (∀ w t r j, L.Good → WS w → JText t j → ((∃ z, j = .int z) → NoDigit r) → (∀ js, j ≠ .arr js) → 0 ∉ w ++ (t ++ r) →
      runM grow L O (w ++ (t ++ r)) = .ub .badUnion ∧ gasM grow L O (w ++ (t ++ r)) = .ub .badUnion) := by
  refine ⟨fun s h cb h0 hp => ?_, fun w t r j hL hw ht hr hj h0 => ?_⟩
  · simp only [parseM] at hp
    simp [runM, gasM, runAt, gasAt, Left.init, cstr_of_notMem h0, constructAt, hp]
  · obtain ⟨h, cb, a, g, e, hs, st, _⟩ := parse_mem_text grow hw ht hr (.inl hL)
    obtain ⟨h1, a1, e1, s1⟩ := construct_sim e hs st
    have hc := check_sim O (n := cb.n) (j := j) s1 (by simp)
    rw [if_neg (by cases j <;> simp_all [JV.ty])] at hc
    simp [runM, gasM, runAt, gasAt, Left.init, cstr_of_notMem h0, e1, hc]

/-- C93, the argument is a C string: what follows its terminator makes no difference. -/
theorem C93_terminated (grow : Nat → Bool) (L : Json.Layout) (O : OpM S) (s x : Bytes) (h0 : 0 ∉ s) :
    runM grow L O (s ++ 0 :: x) = runM grow L O s ∧ gasM grow L O (s ++ 0 :: x) = gasM grow L O s := by
  have h : cstr (s ++ 0 :: x) = cstr s := by
    rw [cstr_of_notMem h0]
    clear grow
    induction s with
    | nil => rfl
    | cons b s ih =>
      have hb : b ≠ 0 := fun h => h0 (by simp [h])
      have ih := ih (fun h => h0 (by simp [h]))
      simp only [cstr, List.cons_append] at ih ⊢
      rw [List.takeWhile_cons_of_pos (by simpa using hb), ih]
  simp [runM, gasM, runAt, gasAt, h]

example := C93_terminated (fun _ => true) ⟨100, 0, 50⟩ reverseM [91, 34, 120, 34, 93] [1, 2, 3] (by decide)

/-- C93, agreement with the entry points on plain data (C36-C41), which therefore also describe what happens in memory. -/
theorem C93_agrees (L : Json.Layout) (hL : L.Good) (O : OpM S) {w t r : Bytes} {js : List JV} (hw : WS w) (ht : JText t (.arr js))
    (h0 : 0 ∉ w ++ (t ++ r)) (hk : ShortKeys (.arr js)) (hlen : (w ++ (t ++ r)).length ≤ 1073643498) :
    Base.opRun O.hooks L (w ++ (t ++ r)) = raise asText (expectRun O (.arr js)) ∧
    Base.opGas O.hooks L (w ++ (t ++ r)) = raise id (expectGas O (.arr js)) := by
  obtain ⟨x, hp, hx⟩ := C24_complete L hL hw ht (by rintro ⟨z, hz⟩; cases hz) hk hlen (r := r)
  have hc : cstr (w ++ (t ++ r)) = w ++ (t ++ r) := cstr_of_notMem h0
  have hv := shows_reads hx O.parse
  cases hx with
  | @arr vs _ hl hi =>
    have hcon : Base.construct O.hooks L (cstr (w ++ (t ++ r))) = .ok ⟨false, false, .arr vs, .arr [], O.init, []⟩ := by
      rw [hc, construct_of hp]; rfl
    rw [Base.opRun, Base.opGas, hcon]
    simp only [Res.ok_bind, Base.start, Base.getGas, Base.check, Value.toArray, OpM.hooks, hv, expectRun, expectGas]
    cases hr : reads (.arr js) O.parse with
    | ok y =>
      obtain ⟨y, b⟩ := y
      cases b with
      | false => exact ⟨rfl, rfl⟩
      | true =>
        rcases hrun : O.run y with ⟨outs, res⟩
        refine ⟨?_, ?_⟩
        · cases res with
          | ok b =>
            cases b with
            | false => simp [hrun, raise, asText]
            | true => simp [hrun, raise, asText, (sc_text outs).1]
          | _ => simp [hrun, raise]
        · simp only [Res.ok_bind, if_true]
          cases hg : O.gas y <;> simp [hg, raise]
    | _ => exact ⟨rfl, rfl⟩

example := C93_agrees ⟨100, 0, 50⟩ layout_x reverseM (w := [32]) (r := [33]) (by simp [WS]) text_x (by decide)
  (.arr (by simp only [List.forall_mem_cons]; exact ⟨.str, by simp⟩)) (by decide)

/-- C93 for the reverse operation: `Reverse.op` is the same as `reverseM` on plain data, and in memory the result is the reversed string. -/
theorem C93_reverse (grow : Nat → Bool) (L : Json.Layout) (hL : L.Good) {w t r : Bytes} {js : List JV} (s : Bytes) (hw : WS w) (ht : JText t (.arr (.str s :: js)))
    (h0 : 0 ∉ w ++ (t ++ r)) : ∃ l l', runM grow L reverseM (w ++ (t ++ r)) = .ok (l, .value (some (Value.print (.arr [.str s.reverse])))) ∧
      gasM grow L reverseM (w ++ (t ++ r)) = .ok (l', .value (s.length * 10)) ∧
      ∀ vs, reverseM.hooks.parse [] vs = Reverse.op.parse [] vs ∧ (∀ st, reverseM.hooks.run st vs = Reverse.op.run st vs) ∧ reverseM.hooks.gas = Reverse.op.gas := by
  obtain ⟨h1, h2⟩ := C93_calls grow L hL reverseM hw ht h0
  have e1 : expectRun reverseM (.arr (.str s :: js)) = .ok (.value (some [.str s.reverse])) := by simp [expectRun, reads, reverseM, JV.part]
  have e2 : expectGas reverseM (.arr (.str s :: js)) = .ok (.value (s.length * 10)) := by simp [expectGas, reads, reverseM, JV.part]
  rw [e1] at h1
  rw [e2] at h2
  obtain ⟨⟨l, o⟩, g1, g2⟩ := Res.bind_eq_ok.mp h1
  obtain ⟨⟨l', o'⟩, g3, g4⟩ := Res.bind_eq_ok.mp h2
  cases g2
  cases g4
  refine ⟨l, l', g1, g3, fun vs => ⟨?_, fun st => rfl, rfl⟩⟩
  cases vs with
  | nil => simp [OpM.hooks, reverseM, Rd.runV, fetchV, Reverse.op, Value.argAt]
  | cons v vs => cases v <;> simp [OpM.hooks, reverseM, Rd.runV, fetchV, Reverse.op, Value.argAt, Value.toStr]

example := C93_reverse (fun _ => true) ⟨100, 0, 50⟩ layout_x (w := [32]) (r := [33]) [120] (by simp [WS]) text_x (by decide)

/-! ### C94 -/

/-- C94, the amounts. What a call leaves behind, including the memory handed to the caller (one block): the loss of the arguments (C91), and for every
result one block and, unless it is a boolean, two heap objects. If a hook throws, everything stays: the operation object, the array for the
results and the arguments. `g` is what `std::vector` adds when it runs out of room. -/
theorem C94_amount_partial (grow : Nat → Bool) (L : Json.Layout) (hL : L.Good) (O : OpM S) {w t r : Bytes} {js : List JV} (hw : WS w) (ht : JText t (.arr js))
    (h0 : 0 ∉ w ++ (t ++ r)) : ∃ g, ((∀ n, grow n = false) → g = 0) ∧ (Clean (.arr js) → g = 0) ∧
      (∀ st, reads (.arr js) O.parse = .ok (st, false) → ∃ l, runM grow L O (w ++ (t ++ r)) = .ok (l, .value none) ∧ Left.total l = argLoss (.arr js) + g) ∧
      (∀ st outs, reads (.arr js) O.parse = .ok (st, true) → O.run st = (outs, .ok true) → ∃ l x, runM grow L O (w ++ (t ++ r)) = .ok (l, .value (some x)) ∧
        Left.total l = argLoss (.arr js) + g + 2 * scCells outs + outs.length + 1) ∧
      (∀ e, reads (.arr js) O.parse = .throw e → ∃ l, runM grow L O (w ++ (t ++ r)) = .ok (l, .thrown e) ∧
        Left.total l = (JV.arr js).lost + (JV.arr js).tree.kept + (JV.arr js).tree.cells + g + 2) ∧
      (∀ st n, reads (.arr js) O.parse = .ok (st, true) → O.gas st = .ok n → ∃ l, gasM grow L O (w ++ (t ++ r)) = .ok (l, .value n) ∧
        Left.total l = argLoss (.arr js) + g + 1) ∧
      (∀ st outs, reads (.arr js) O.parse = .ok (st, true) → O.run st = (outs, .ok false) → ∃ l, runM grow L O (w ++ (t ++ r)) = .ok (l, .value none) ∧
        Left.total l = argLoss (.arr js) + g + 2 * scCells outs + outs.length) ∧
      (∀ st outs e, reads (.arr js) O.parse = .ok (st, true) → O.run st = (outs, .throw e) → ∃ l, runM grow L O (w ++ (t ++ r)) = .ok (l, .thrown e) ∧
        Left.total l = (JV.arr js).lost + (JV.arr js).tree.kept + (JV.arr js).tree.cells + g + 2 * scCells outs + outs.length + 2) ∧
      (∀ st, reads (.arr js) O.parse = .ok (st, false) → ∃ l, gasM grow L O (w ++ (t ++ r)) = .ok (l, .value 1500) ∧ Left.total l = argLoss (.arr js) + g + 1) ∧
      (∀ e, (reads (.arr js) O.parse = .throw e ∨ ∃ st, reads (.arr js) O.parse = .ok (st, true) ∧ O.gas st = .throw e) →
        ∃ l, gasM grow L O (w ++ (t ++ r)) = .ok (l, .thrown e) ∧ Left.total l = (JV.arr js).lost + (JV.arr js).tree.kept + (JV.arr js).tree.cells + g + 2) := by
  obtain ⟨h, cb, a, g, e, hs, st, hg, hg'⟩ := parse_mem_text grow hw ht (r := r) (by simp) (.inl hL)
  have hz : cstr (w ++ (t ++ r)) = w ++ (t ++ r) := cstr_noNul h0
  have h1 := call_sim O (s := w ++ (t ++ r)) (l := Left.init) (hz ▸ e) hs st rfl
  have h2 := gas_sim O (s := w ++ (t ++ r)) (l := Left.init) (hz ▸ e) hs st rfl
  rw [show ∀ s, runAt grow L O Left.init s = runM grow L O s from fun _ => rfl] at h1
  rw [show ∀ s, gasAt grow L O Left.init s = gasM grow L O s from fun _ => rfl] at h2
  refine ⟨g, hg, fun hc => hg' (clean_iff.mp hc), ?_, ?_, ?_, ?_, ?_, ?_, ?_, ?_⟩
  · intro st hr
    rw [hr] at h1
    obtain ⟨l, e, ht⟩ := h1
    exact ⟨l, e, by rw [ht.1.total, ht.2, argLoss]; simp only [Left.init]; omega⟩
  · intro st outs hr ho
    rw [hr] at h1
    simp only [ho] at h1
    obtain ⟨l, e, ht⟩ := h1
    exact ⟨l, _, e, by rw [ht.1.total, ht.2, argLoss]; simp only [Left.init]; omega⟩
  · intro x hr
    rw [hr] at h1
    obtain ⟨l, e, ht⟩ := h1
    exact ⟨l, e, by rw [ht.1.total, ht.2]; simp only [Left.init]; omega⟩
  · intro st n hr hn
    rw [hr] at h2
    simp only [Res.ok_bind, if_true, hn] at h2
    obtain ⟨l, e, ht⟩ := h2
    exact ⟨l, e, by rw [ht.1.total, ht.2, argLoss]; simp only [Left.init]; omega⟩
  · intro st outs hr ho
    rw [hr] at h1
    simp only [ho] at h1
    obtain ⟨l, e, ht⟩ := h1
    exact ⟨l, e, by rw [ht.1.total, ht.2, argLoss]; simp only [Left.init]; omega⟩
  · intro st outs x hr ho
    rw [hr] at h1
    simp only [ho] at h1
    obtain ⟨l, e, ht⟩ := h1
    exact ⟨l, e, by rw [ht.1.total, ht.2]; simp only [Left.init]; omega⟩
  · intro st hr
    rw [hr] at h2
    simp only [Res.ok_bind, Bool.false_eq_true, if_false] at h2
    obtain ⟨l, e, ht⟩ := h2
    exact ⟨l, e, by rw [ht.1.total, ht.2, argLoss]; simp only [Left.init]; omega⟩
  · rintro x (hr | ⟨st, hr, hn⟩)
    · rw [hr] at h2
      obtain ⟨l, e, ht⟩ := h2
      exact ⟨l, e, by rw [ht.1.total, ht.2]; simp only [Left.init]; omega⟩
    · rw [hr] at h2
      simp only [Res.ok_bind, if_true, hn] at h2
      obtain ⟨l, e, ht⟩ := h2
      exact ⟨l, e, by rw [ht.1.total, ht.2]; simp only [Left.init]; omega⟩

example := C94_amount_partial (fun _ => true) ⟨100, 0, 50⟩ layout_x reverseM (w := [32]) (r := [33]) (by simp [WS]) text_x (by decide)

/-- C94, exactly when it holds: a successful call of `OP_run` leaves nothing but the text it returned exactly if the arguments are clean (C91) and there are
no results; one of `OP_gas` leaves nothing but the number exactly if the arguments are clean. -/
theorem C94_iff_partial (grow : Nat → Bool) (L : Json.Layout) (hL : L.Good) (O : OpM S) {w t r : Bytes} {js : List JV} (hw : WS w) (ht : JText t (.arr js))
    (h0 : 0 ∉ w ++ (t ++ r)) (st : S) (hp : reads (.arr js) O.parse = .ok (st, true)) :
    (∀ outs, O.run st = (outs, .ok true) → ∃ l x, runM grow L O (w ++ (t ++ r)) = .ok (l, .value (some x)) ∧ (Left.total l = 1 ↔ Clean (.arr js) ∧ outs = [])) ∧
    (∀ n, O.gas st = .ok n → ∃ l, gasM grow L O (w ++ (t ++ r)) = .ok (l, .value n) ∧ (Left.total l = 1 ↔ Clean (.arr js))) := by
  obtain ⟨g, _, hg, _, h2, _, h4, _⟩ := C94_amount_partial grow L hL O hw ht h0
  have hl : argLoss (.arr js) + g = 0 ↔ Clean (.arr js) := by
    constructor
    · intro h
      rw [argLoss] at h
      exact clean_iff.mpr (by omega)
    · intro h
      have h' := clean_iff.mp h
      rw [hg h, argLoss, lost_kept h', h']
  refine ⟨fun outs ho => ?_, fun n hn => ?_⟩
  · obtain ⟨l, x, e, ht⟩ := h2 st outs hp ho
    refine ⟨l, x, e, ?_⟩
    rw [ht, ← hl]
    constructor
    · intro h
      exact ⟨by omega, List.eq_nil_of_length_eq_zero (by omega)⟩
    · rintro ⟨h, rfl⟩
      simp only [scCells, List.countP_nil, List.length_nil]
      omega
  · obtain ⟨l, e, ht⟩ := h4 st n hp hn
    refine ⟨l, e, ?_⟩
    rw [ht, ← hl]
    omega

/-- C94 is false of the code: `reverse_run` on `["x"]` leaves eight objects behind besides the text it returns. -/
theorem C94_reverse_false (grow : Nat → Bool) (L : Json.Layout) (hL : L.Good) :
    ∃ l x, runM grow L reverseM [91, 34, 120, 34, 93] = .ok (l, .value (some x)) ∧ 9 ≤ Left.total l := by
  have hw : WS [] := by simp [WS]
  have hs : JText [34, 120, 34] (.str [120]) := .str (.raw (by decide) (by decide) .nil)
  have ht : JText [91, 34, 120, 34, 93] (.arr [.str [120]]) := .arr (Elems.one hw hs hw)
  obtain ⟨g, _, _, _, h2, _⟩ := C94_amount_partial grow L hL reverseM (w := []) (r := []) hw ht (by decide)
  obtain ⟨l, x, e, h⟩ := h2 [120] [.str [120]] (by simp [reads, reverseM, JV.part]) rfl
  refine ⟨l, x, e, ?_⟩
  rw [h, show argLoss (.arr [.str [120]]) = 5 from rfl, show scCells [.str [120]] = 1 from rfl]
  simp

/-- C94 is false of the code also for `[]`: the exception of `reverse_run` leaves the operation object and two arrays behind. -/
theorem C94_throw_false (grow : Nat → Bool) (L : Json.Layout) (hL : L.Good) :
    ∃ l, runM grow L reverseM [91, 93] = .ok (l, .thrown .invalidVectorIndex) ∧ Left.total l = 3 := by
  have hw : WS [] := by simp [WS]
  have ht : JText [91, 93] (.arr []) := .arrNil (w := []) hw
  obtain ⟨g, _, hg, _, _, h3, _⟩ := C94_amount_partial grow L hL reverseM (w := []) (r := []) hw ht (by decide)
  obtain ⟨l, e, h⟩ := h3 .invalidVectorIndex (by simp [reads, reverseM, JV.part])
  refine ⟨l, e, ?_⟩
  rw [h, hg (clean_iff.mpr rfl)]
  rfl

/-- an operation that reads a boolean and has no results leaves nothing but the text -/
example : ∃ l x, runM (fun _ => true) ⟨100, 0, 50⟩ (⟨false, .bool [.elem 0] fun b => .done (.ok (b, true)), fun _ => .ok 7, fun _ => ([], .ok true)⟩ : OpM Bool)
    ([] ++ ([91, 116, 114, 117, 101, 93] ++ [])) = .ok (l, .value (some x)) ∧ Left.total l = 1 := by
  have hw : WS [] := by simp [WS]
  have ht : JText [91, 116, 114, 117, 101, 93] (.arr [.bool true]) := .arr (Elems.one (t := [116, 114, 117, 101]) hw .true_ hw)
  obtain ⟨l, x, e, h⟩ := (C94_iff_partial (fun _ => true) ⟨100, 0, 50⟩ (by simp [Json.Layout.Good])
    (⟨false, .bool [.elem 0] fun b => .done (.ok (b, true)), fun _ => .ok 7, fun _ => ([], .ok true)⟩ : OpM Bool) hw ht (r := []) (by decide) true (by simp [reads, JV.part])).1 [] rfl
  exact ⟨l, x, e, h.mpr ⟨.arr (by simp [JV.isBool]), rfl⟩⟩

end Eni.Props
