import Verif.Proofs.ParserFinal
import Verif.Proofs.JsonDepth
import Verif.Props.Json
/-!
# Parsing in memory: C90, C91, C92

`grow n` says whether `std::vector` moves to a larger block when it holds `n` elements; every theorem is for all such functions.
-/
namespace Eni.Props
open Spec Owner

/-! ### C90 -/

/-- C90: whatever the text, the calls of the parser to its callbacks and the destruction of the parser use no memory that is released,
uninitialised or not there. -/
theorem C90_safe (grow : Nat → Bool) (L : Json.Layout) (s : Bytes) : ∃ h cb b h', parseM grow L s = .ok (h, cb, b) ∧ finishM h cb = .ok h' := by
  rcases parse_mem grow L s with ⟨h, cb, w, t, r, j, a, g, e, _, _, _, hs, st, _⟩ | ⟨h, cb, s', e, S, _⟩
  · obtain ⟨h', e', _⟩ := finish_sim (s := ⟨[], j.tree, a, j.lost + g⟩) ⟨[], hs, rfl, st⟩
    exact ⟨h, cb, true, h', e, e'⟩
  · obtain ⟨h', e', _⟩ := finish_sim S
    exact ⟨h, cb, false, h', e, e'⟩

/-- C90, accepted texts: the root in memory is the value that the text denotes, made of heap objects each of which has one owner. -/
theorem C90_value (grow : Nat → Bool) (L : Json.Layout) (hL : L.Good) {w t r : Bytes} {j : JV} (hw : WS w) (ht : JText t j) (hr : (∃ z, j = .int z) → NoDigit r) :
    ∃ h cb v l, parseM grow L (w ++ (t ++ r)) = .ok (h, cb, true) ∧ readAt h ⟨0, cb.root⟩ = .ok v ∧ Holds h v j.tree l ∧ l.Nodup := by
  obtain ⟨h, cb, a, g, e, _, st, _⟩ := parse_mem_text grow hw ht hr (.inl hL)
  obtain ⟨ts, F, k0, ⟨l, H, nd, _⟩, hl, v, _⟩ := st
  obtain ⟨d, wd, ld, lr, cd, g1, g2, g2', g3, g4, _⟩ := focus [.elem cb.root] H nd (by simp) ((get_var ts cb.root).trans (v.2.1 (cb.root, j.tree) (by simp)))
  have hlt := v.lt (p := (cb.root, j.tree)) (by simp)
  have hd : d = ⟨0, cb.root⟩ := by
    simp only [locate, stepInto, frame, if_true, Heap.deref] at g1
    cases H with
    | arr hc _ =>
      simp only [hc, Res.ok_bind] at g1
      split at g1
      · cases g1; rfl
      · cases g1
  subst hd
  exact ⟨h, cb, wd, ld, e, g2, g3, (List.nodup_append.mp (g4.nodup_iff.mp nd)).1⟩

/-- C90, only accepted texts of the grammar: when the parser accepts, the root in memory is the value of a text of the grammar. -/
theorem C90_sound (grow : Nat → Bool) (L : Json.Layout) (s : Bytes) (h : Owner.Heap) (cb : Cb) (hp : parseM grow L s = .ok (h, cb, true)) :
    ∃ w t r j v l, s = w ++ (t ++ r) ∧ WS w ∧ JText t j ∧ readAt h ⟨0, cb.root⟩ = .ok v ∧ Holds h v j.tree l := by
  rcases parse_mem grow L s with ⟨h', cb', w, t, r, j, a, g, e, h1, h2, h3, _, st, _⟩ | ⟨h', cb', s', e, _⟩
  · rw [hp] at e
    cases e
    obtain ⟨v, l, x, y⟩ := st.type (i := cb.root) (x := j.tree) (by simp)
    exact ⟨w, t, r, j, v, l, h1, h2, h3, x, y⟩
  · rw [hp] at e
    cases e

example : ∃ h cb w t r j v l, parseM (fun _ => true) ⟨100, 0, 50⟩ [91, 93, 33] = .ok (h, cb, true) ∧ [91, 93, 33] = w ++ (t ++ r) ∧ WS w ∧ JText t j ∧
    readAt h ⟨0, cb.root⟩ = .ok v ∧ Holds h v j.tree l := by
  obtain ⟨h, cb, v, l, hp, _⟩ := C90_value (fun _ => true) ⟨100, 0, 50⟩ (by simp [Json.Layout.Good]) (w := []) (r := [33]) (by simp [WS])
    (.arrNil (w := []) (by simp [WS])) (by simp)
  obtain ⟨w, t, r, j, v', l', h1, h2, h3, h4, h5⟩ := C90_sound _ _ _ h cb hp
  exact ⟨h, cb, w, t, r, j, v', l', hp, h1, h2, h3, h4, h5⟩

/-- C90, agreement with the parser on plain data (C23, C24): the same texts are accepted, and a text that is not accepted ends the process with 87. -/
theorem C90_agrees (grow : Nat → Bool) (L : Json.Layout) (s : Bytes) (hlen : s.length ≤ 1073643498) (h : Owner.Heap) (cb : Cb) (b : Bool)
    (hp : parseM grow L s = .ok (h, cb, b)) : (∃ x, Json.parse L s = .ok ⟨b, x⟩) ∧ (b = false → lifetime grow L s = .exit 87) := by
  refine ⟨?_, fun hb => by subst hb; simp [lifetime, hp]⟩
  obtain ⟨b', x, hx⟩ := C23_total L s hlen
  have : b' = b := by
    unfold parseM parseAt at hp
    unfold Json.parse at hx
    obtain ⟨h0, _, hp⟩ := Res.bind_eq_ok.mp hp
    split at hp <;> rename_i hv <;> rw [hv] at hx
    · obtain ⟨⟨h1, cb1⟩, _, hp⟩ := Res.bind_eq_ok.mp hp
      obtain ⟨cb2, _, hx⟩ := Res.bind_eq_ok.mp hx
      cases hp; cases hx; rfl
    · obtain ⟨⟨h1, cb1⟩, _, hp⟩ := Res.bind_eq_ok.mp hp
      obtain ⟨cb2, _, hx⟩ := Res.bind_eq_ok.mp hx
      cases hp; cases hx; rfl
    · cases hp
    · cases hp
  exact ⟨x, this ▸ hx⟩

example : ∃ b h cb, parseM (fun _ => true) ⟨100, 0, 50⟩ [91, 93, 33] = .ok (h, cb, b) ∧ ∃ x, Json.parse ⟨100, 0, 50⟩ [91, 93, 33] = .ok ⟨b, x⟩ := by
  obtain ⟨h, cb, v, l, hp, _⟩ := C90_value (fun _ => true) ⟨100, 0, 50⟩ (by simp [Json.Layout.Good]) (w := []) (r := [33]) (by simp [WS])
    (.arrNil (w := []) (by simp [WS])) (by simp)
  exact ⟨true, h, cb, hp, (C90_agrees _ _ _ (by decide) h cb true hp).1⟩

/-- C90, what the tree of a value is: elements by index, and a member is the last one of that name. -/
theorem C90_tree (js : List JV) (i : Nat) (ms : List (Bytes × JV)) (k : Bytes) : (JV.arr js).tree.get [.elem i] = js[i]?.map JV.tree ∧
    (JV.obj ms).tree.get [.mem k] = (lastMember ms k).map JV.tree := ⟨tree_elem js i, tree_member ms k⟩

example : ∃ h cb v l, parseM (fun _ => true) ⟨100, 0, 50⟩ ([32] ++ ([123, 34, 97, 34, 58, 91, 116, 114, 117, 101, 44, 45, 49, 50, 93, 125] ++ [10])) = .ok (h, cb, true) ∧
    readAt h ⟨0, cb.root⟩ = .ok v ∧ Holds h v (.obj [[97]] [.arr [.bool true, .int (-12)]]) l ∧ l.Nodup :=
  C90_value _ ⟨100, 0, 50⟩ (by simp [Json.Layout.Good]) (by simp [WS]) sample_text (by simp)

/-! ### C91 -/

/-- C91, exactly when it holds: constructing and destroying an `EniBase` whose argument text denotes `j` leaves nothing allocated (but the frame) exactly
if `j` is clean. -/
theorem C91_iff_partial (grow : Nat → Bool) (L : Json.Layout) (hL : L.Good) {w t r : Bytes} {j : JV} (hw : WS w) (ht : JText t j)
    (hr : (∃ z, j = .int z) → NoDigit r) : ∃ h, lifetime grow L (w ++ (t ++ r)) = .ok h ∧ (live h = 1 ↔ Clean j) := by
  obtain ⟨h, cb, a, g, e, hs, st, _, hg⟩ := parse_mem_text grow hw ht hr (.inl hL)
  obtain ⟨h', e', s'⟩ := lifetime_run e hs st
  refine ⟨h', e', ?_⟩
  rw [s'.live, clean_iff]
  simp only [sumCells, List.map_nil, Tree.cellsAll]
  constructor
  · intro hx; omega
  · intro hx
    rw [hg hx, lost_kept hx, hx]

example := C91_iff_partial (fun _ => true) ⟨100, 0, 50⟩ (by simp [Json.Layout.Good]) (w := []) (r := [33]) (by simp [WS]) (.arrNil (w := []) (by simp [WS])) (by simp)

/-- C91, the amounts: at least as much is lost as the text's value says, and no more if the vector never has to move. -/
theorem C91_amount_partial (grow : Nat → Bool) (L : Json.Layout) (hL : L.Good) {w t r : Bytes} {j : JV} (hw : WS w) (ht : JText t j)
    (hr : (∃ z, j = .int z) → NoDigit r) : ∃ h, lifetime grow L (w ++ (t ++ r)) = .ok h ∧ 1 + j.lost + 2 * j.tree.kept ≤ live h ∧
      ((∀ n, grow n = false) → live h = 1 + j.lost + 2 * j.tree.kept) := by
  obtain ⟨h, cb, a, g, e, hs, st, hg, _⟩ := parse_mem_text grow hw ht hr (.inl hL)
  obtain ⟨h', e', s'⟩ := lifetime_run e hs st
  refine ⟨h', e', ?_, fun hn => ?_⟩
  · rw [s'.live]; simp only [sumCells, List.map_nil, Tree.cellsAll]; omega
  · rw [s'.live, hg hn]; simp only [sumCells, List.map_nil, Tree.cellsAll]; omega

example := C91_amount_partial (fun _ => true) ⟨100, 0, 50⟩ (by simp [Json.Layout.Good]) (w := []) (r := [33]) (by simp [WS]) (.arrNil (w := []) (by simp [WS])) (by simp)

/-- C91 is false of the code: an argument list with one string, `["x"]`, leaves five objects behind, whatever the vector does. -/
theorem C91_string_argument_false (grow : Nat → Bool) (L : Json.Layout) (hL : L.Good) : ∃ h, lifetime grow L [91, 34, 120, 34, 93] = .ok h ∧ 6 ≤ live h := by
  have hw : WS [] := by simp [WS]
  have hs : JText [34, 120, 34] (.str [120]) := .str (.raw (by decide) (by decide) .nil)
  have ht : JText [91, 34, 120, 34, 93] (.arr [.str [120]]) := .arr (Elems.one hw hs hw)
  obtain ⟨h, e, h1, _⟩ := C91_amount_partial grow L hL (w := []) (r := []) hw ht (by simp)
  exact ⟨h, e, h1⟩

/-- A clean value: `{"a":"b","c":[true]}`. -/
example : Clean (.obj [([97], .str [98]), ([99], .arr [.bool true])]) := by
  rw [clean_iff]
  decide +kernel

/-- Not clean: `[1]`. -/
example : ¬ Clean (.arr [.int 1]) := by
  rw [clean_iff]
  decide +kernel

/-! ### C92 -/

/-- C92, a bound that holds: parsing a text of `n` bytes allocates at most `3n(n+1)/2` heap objects. -/
theorem C92_bound_partial (grow : Nat → Bool) (L : Json.Layout) (s : Bytes) : ∃ h cb b, parseM grow L s = .ok (h, cb, b) ∧
    2 * h.next ≤ 2 + 3 * (s.length * (s.length + 1)) := by
  rcases parse_mem grow L s with ⟨h, cb, w, t, r, j, a, g, e, _, _, _, _, ⟨_, _, _, _, hn, _⟩, hb, _⟩ | ⟨h, cb, s', e, ⟨_, _, _, ⟨_, _, _, _, hn, _⟩⟩, hb⟩
  · exact ⟨h, cb, true, e, by omega⟩
  · exact ⟨h, cb, false, e, by omega⟩

theorem nested_kept (n : Nat) : (nested n).tree.kept = n ∧ (nested n).tree.cells = n + 1 ∧ 2 * (nested n).lost = 3 * (n * (n + 1)) := by
  induction n with
  | zero => exact ⟨rfl, rfl, rfl⟩
  | succ n ih =>
    obtain ⟨h1, h2, h3⟩ := ih
    have hc : (nested (n + 1)).tree.cells = n + 2 := by
      simp only [nested, JV.tree, treesOf, Tree.cells, Tree.cellsAll, h2]
      omega
    have hk : (nested (n + 1)).tree.kept = n + 1 := by
      simp only [nested, JV.tree, treesOf, kept_arr, Tree.cellsAll, h2]
    refine ⟨hk, hc, ?_⟩
    have hl : (nested (n + 1)).lost = (nested n).lost + 3 * (nested (n + 1)).tree.kept := by
      simp only [nested, JV.lost, lostElems]
      omega
    rw [hl, hk, Nat.mul_add, h3]
    ring

/-- C92 is false of the code: `n + 1` nested arrays, a text of `2n + 2` bytes, leave at least `3n(n+1)/2` objects allocated for good. -/
theorem C92_quadratic_false (grow : Nat → Bool) (L : Json.Layout) (n : Nat) : (nestedText n).length = 2 * n + 2 ∧
    ∃ h, lifetime grow L (nestedText n) = .ok h ∧ 3 * (n * (n + 1)) ≤ 2 * live h ∧ live h ≤ h.next := by
  refine ⟨by simp [nestedText]; omega, ?_⟩
  obtain ⟨h, cb, a, g, e, hs, st, _, _⟩ := parse_mem_text grow (w := []) (r := []) (by simp [WS]) (Json.nested_text n) (by cases n <;> simp [nested])
    (.inr (Json.nested_boolFree n))
  obtain ⟨h', e', s'⟩ := lifetime_run e hs st
  refine ⟨h', by simpa using e', ?_, ?_⟩
  · obtain ⟨_, _, h3⟩ := nested_kept n
    rw [s'.live]
    omega
  · simpa [live] using List.countP_le_length (p := fun q => (h'.cell q).isSome) (l := List.range h'.next)

/-- C92: so no bound linear in the length of the text exists. -/
theorem C92_linear_false (grow : Nat → Bool) (L : Json.Layout) (c : Nat) : ∃ s h, lifetime grow L s = .ok h ∧ c * s.length < h.next := by
  obtain ⟨hl, h, e, h1, h2⟩ := C92_quadratic_false grow L (2 * c + 1)
  refine ⟨_, h, e, ?_⟩
  rw [hl]
  nlinarith

end Eni.Props
