import Verif.Proofs.JsonOrder
import Verif.Props.Json
/-!
# Properties C74, C75: what a printed value tells
-/
namespace Eni.Props
open Spec Json

/-! ### C74 -/

/-- C74, the part that holds: among values without members (any nesting of arrays, strings, numbers, booleans, empty objects), two that
print the same text are the same JSON value. -/
theorem C74_no_members_partial {v v' : Value} {j j' : JV} (hv : Shows v j) (hv' : Shows v' j') (hn : NoMembers j) (hn' : NoMembers j')
    (hr : InRange j) (hr' : InRange j') (h : Value.print v = Value.print v') : j = j' := by
  have := C24_unambiguous (w := []) (w' := []) (r := []) (r' := []) (by simp [WS]) (by simp [WS]) (print_text hv hn hr) (print_text hv' hn' hr')
    (by simp [NoDigit]) (by simp [NoDigit]) (by simpa using h)
  exact this.1

example := C74_no_members_partial sample_mixed sample_mixed (.arr (by simp only [List.forall_mem_cons]; exact ⟨.str, .int, by simp⟩))
  (.arr (by simp only [List.forall_mem_cons]; exact ⟨.str, .int, by simp⟩)) (.arr (by simp only [List.forall_mem_cons]; exact ⟨.str, .int (by decide), by simp⟩))
  (.arr (by simp only [List.forall_mem_cons]; exact ⟨.str, .int (by decide), by simp⟩)) rfl

/-- C74, object-free values: the very same value. -/
theorem C74_object_free_partial {v v' : Value} {j j' : JV} (hv : Shows v j) (hv' : Shows v' j') (hf : ObjFree j) (hf' : ObjFree j')
    (hr : InRange j) (hr' : InRange j') (h : Value.print v = Value.print v') : v = v' := by
  have := C74_no_members_partial hv hv' (ObjFree.noMembers hf) (ObjFree.noMembers hf') hr hr' h
  subst this
  exact shows_unique hv' hf v hv

example : Value.print (.str [49]) ≠ Value.print (.int 1) := by
  intro h
  have := C74_object_free_partial .str .int .str .int .str (.int (by decide)) h
  cases this

/-- C74 is false of objects, because keys are printed without quotes: to every object with two members there is an object with a single
member, the result of parsing a JSON text, that prints the same text. -/
theorem C74_objects_false (L : Layout) (hL : L.Good) {v : Value} {k₁ k₂ : Bytes} {a b : JV} (hne : k₁ ≠ k₂)
    (hv : Shows v (.obj [(k₁, a), (k₂, b)])) (hf : ObjFree a ∧ ObjFree b) (hr : InRange a ∧ InRange b)
    (hlen : (Value.print v).length ≤ 65535) :
    ∃ t k j v', parse L t = .ok ⟨true, v'⟩ ∧ Shows v' (.obj [(k, j)]) ∧ Value.print v' = Value.print v := by
  obtain ⟨x, y, hx, hy, hp⟩ := shows_two hne hv
  have key : ∀ (p q : Bytes) (x y : Value) (j : JV), Shows y j → ObjFree j → InRange j →
      Value.print v = [123, 10] ++ (p ++ 58 :: (Value.print x ++ 44 :: (q ++ 58 :: Value.print y))) ++ [10, 125] →
      ∃ t k j v', parse L t = .ok ⟨true, v'⟩ ∧ Shows v' (.obj [(k, j)]) ∧ Value.print v' = Value.print v := by
    intro p q x y j hy hfy hry hpr
    have hl := hlen
    rw [hpr] at hl
    simp only [List.length_append, List.length_cons, List.length_nil] at hl
    have ht := print_text hy (ObjFree.noMembers hfy) hry
    have hm := member_text (p ++ 58 :: (Value.print x ++ 44 :: q)) ht
    have hps := printStr_length (p ++ 58 :: (Value.print x ++ 44 :: q))
    simp only [List.length_append, List.length_cons] at hps
    have hsk : ShortKeys (.obj [(p ++ 58 :: (Value.print x ++ 44 :: q), j)]) := by
      refine .obj ?_ ?_
      · intro k j' hk
        simp only [List.mem_singleton, Prod.mk.injEq] at hk
        rw [hk.1]
        simp only [List.length_append, List.length_cons]
        omega
      · intro k j' hk
        simp only [List.mem_singleton, Prod.mk.injEq] at hk
        rw [hk.2]
        exact NoMembers.shortKeys (ObjFree.noMembers hfy)
    obtain ⟨v', h1, h2⟩ := C24_complete L hL (w := []) (r := []) (by simp [WS]) hm (by simp) hsk (by
      simp only [List.length_append, List.length_cons, List.length_nil, List.nil_append, List.append_nil]
      omega)
    refine ⟨_, _, _, v', h1, h2, ?_⟩
    obtain ⟨y', hy', hp'⟩ := shows_one h2
    rw [shows_unique hy hfy y' hy'] at hp'
    rw [hp', hpr]
    simp
  rcases hp with hp | hp
  · exact key _ _ _ _ _ hy hf.2 hr.2 hp
  · exact key _ _ _ _ _ hx hf.1 hr.1 hp

/-- `{"a":1,"b":2}` -/
example : ∃ v t k j v', parse ⟨100, 0, 50⟩ [123, 34, 97, 34, 58, 49, 44, 34, 98, 34, 58, 50, 125] = .ok ⟨true, v⟩ ∧
    parse ⟨100, 0, 50⟩ t = .ok ⟨true, v'⟩ ∧ Shows v' (.obj [(k, j)]) ∧ Value.print v' = Value.print v := by
  have n1 : JText [49] (.int 1) := int_text ⟨by decide, by simp [Digit], by decide, by decide⟩ (by decide)
  have n2 : JText [50] (.int 2) := int_text ⟨by decide, by simp [Digit], by decide, by decide⟩ (by decide)
  have ba : StrBody [97] [97] := .raw (by decide) (by decide) .nil
  have bb : StrBody [98] [98] := .raw (by decide) (by decide) .nil
  have hws : WS [] := by simp [WS]
  have ht := JText.obj (Members.cons hws ba hws hws n1 hws (Members.one hws bb hws hws n2 hws))
  have hG : (⟨100, 0, 50⟩ : Layout).Good := by constructor <;> decide
  obtain ⟨v, h1, h2⟩ := C24_complete ⟨100, 0, 50⟩ hG (w := []) (r := []) hws ht (by simp) (by
    refine .obj ?_ ?_
    · intro k j h
      simp at h
      rcases h with h | h <;> simp [h.1]
    · intro k j h
      simp at h
      rcases h with h | h <;> (rw [h.2]; exact .int)) (by decide)
  refine ⟨v, ?_⟩
  obtain ⟨x, y, hx, hy, hp⟩ := shows_two (by decide) h2
  cases hx
  cases hy
  have hd1 : Value.print (.int 1) = [49] := by rw [Value.print]; simp [Value.s256Print]; rw [Value.natDec]; rfl
  have hd2 : Value.print (.int 2) = [50] := by rw [Value.print]; simp [Value.s256Print]; rw [Value.natDec]; rfl
  obtain ⟨t, k, j, v', g⟩ := C74_objects_false ⟨100, 0, 50⟩ hG (by decide) h2 ⟨.int, .int⟩ ⟨.int (by decide), .int (by decide)⟩ (by
    rcases hp with hp | hp <;> rw [hp, hd1, hd2] <;> decide)
  exact ⟨t, k, j, v', h1, g⟩

/-! ### C75 -/

/-- C75, one member: two values that show the same object with one member whose value contains no object print the same text. -/
theorem C75_single_partial {v v' : Value} {k : Bytes} {j : JV} (hv : Shows v (.obj [(k, j)])) (hv' : Shows v' (.obj [(k, j)])) (hf : ObjFree j) :
    Value.print v = Value.print v' := by
  obtain ⟨x, hx, hp⟩ := shows_one hv
  obtain ⟨x', hx', hp'⟩ := shows_one hv'
  rw [hp, hp', shows_unique hx hf x' hx']

/-- C75, in general: two values that show the same object whose member values contain no object print the same members, possibly in a
different order. -/
theorem C75_order_partial {m m' : SMap Value} {ms : List (Bytes × JV)} (hv : Shows (.obj m) (.obj ms)) (hv' : Shows (.obj m') (.obj ms))
    (hf : ∀ k j, (k, j) ∈ ms → ObjFree j) :
    ∃ l l' : List Bytes, l.Perm l' ∧ Value.print (.obj m) = [123, 10] ++ [44].intercalate l ++ [10, 125] ∧
      Value.print (.obj m') = [123, 10] ++ [44].intercalate l' ++ [10, 125] := by
  refine ⟨_, _, ?_, print_bindings m, print_bindings m'⟩
  refine List.Perm.map _ ?_
  have key := shows_find hv hv' hf
  cases hv with
  | obj _ a2 a3 a4 a5 a6 =>
    cases hv' with
    | obj _ b2 b3 b4 b5 b6 =>
      have nd : (SMap.bindings m).Nodup := (a2.nodup_iff.mpr (List.nodup_dedup _)).of_map
      have nd' : (SMap.bindings m').Nodup := (b2.nodup_iff.mpr (List.nodup_dedup _)).of_map
      have half : ∀ {m₁ m₂ : SMap Value}, ((SMap.bindings m₁).map Prod.fst).Perm ((SMap.bindings m₂).map Prod.fst) →
          (∀ k v, (k, v) ∈ SMap.bindings m₁ → SMap.find m₁ k = .ok (some v)) → (∀ k v, (k, v) ∈ SMap.bindings m₂ → SMap.find m₂ k = .ok (some v)) →
          (∀ k v, SMap.find m₁ k = .ok (some v) → SMap.find m₂ k = .ok (some v)) → ∀ kv ∈ SMap.bindings m₁, kv ∈ SMap.bindings m₂ := by
        intro m₁ m₂ hp h1 h2 hk kv hkv
        have : kv.1 ∈ (SMap.bindings m₂).map Prod.fst := hp.subset (List.mem_map.mpr ⟨kv, hkv, rfl⟩)
        obtain ⟨⟨k, w⟩, hw, e⟩ := List.mem_map.mp this
        have g1 := hk _ _ (h1 _ _ hkv)
        have g2 := h2 _ _ hw
        simp only at e
        rw [e, g1] at g2
        cases g2
        rwa [e] at hw
      have hp := a2.trans b2.symm
      refine (List.perm_ext_iff_of_nodup nd nd').mpr fun kv => ⟨?_, ?_⟩
      · exact half hp a3 b3 (fun k v h => key k ▸ h) kv
      · exact half hp.symm b3 a3 (fun k v h => key k ▸ h) kv

/-- Texts of `{"a":1,"r":2}` and `{"r":2,"a":1}` -/
def textAR : Bytes := [123, 34, 97, 34, 58, 49, 44, 34, 114, 34, 58, 50, 125]
def textRA : Bytes := [123, 34, 114, 34, 58, 50, 44, 34, 97, 34, 58, 49, 125]

/-- The keys of the object a text parses to, in the order in which iteration and printing meet them. -/
def keyOrder (L : Layout) (t : Bytes) : Option (List Bytes) :=
  match parse L t with
  | .ok ⟨true, .obj m⟩ => some ((SMap.bindings m).map Prod.fst)
  | _ => none

/-- C75 is false of objects with more members: `{"a":1,"r":2}` and `{"r":2,"a":1}` parse to objects with the same members, found by the
same lookups, that print different texts, because the two keys share a bucket. -/
theorem C75_order_false (L : Layout) : ∃ m m', parse L textAR = .ok ⟨true, .obj m⟩ ∧ parse L textRA = .ok ⟨true, .obj m'⟩ ∧
    Shows (.obj m) (.obj [([97], .int 1), ([114], .int 2)]) ∧ Shows (.obj m') (.obj [([97], .int 1), ([114], .int 2)]) ∧
    (∀ k, SMap.find m k = SMap.find m' k) ∧ Value.print (.obj m) ≠ Value.print (.obj m') := by
  have hL : ∀ t, (t = textAR ∨ t = textRA) → parse L t = parse ⟨100, 0, 50⟩ t := by
    intro t ht
    refine C25_no_letters_partial _ _ _ ?_ ?_ ?_ <;> rcases ht with rfl | rfl <;> decide
  rw [hL _ (.inl rfl), hL _ (.inr rfl)]
  have hG : (⟨100, 0, 50⟩ : Layout).Good := by constructor <;> decide
  have n1 : JText [49] (.int 1) := int_text ⟨by decide, by simp [Digit], by decide, by decide⟩ (by decide)
  have n2 : JText [50] (.int 2) := int_text ⟨by decide, by simp [Digit], by decide, by decide⟩ (by decide)
  have ba : StrBody [97] [97] := .raw (by decide) (by decide) .nil
  have br : StrBody [114] [114] := .raw (by decide) (by decide) .nil
  have hws : WS [] := by simp [WS]
  have ht : JText textAR (.obj [([97], .int 1), ([114], .int 2)]) :=
    JText.obj (Members.cons hws ba hws hws n1 hws (Members.one hws br hws hws n2 hws))
  have ht' : JText textRA (.obj [([114], .int 2), ([97], .int 1)]) :=
    JText.obj (Members.cons hws br hws hws n2 hws (Members.one hws ba hws hws n1 hws))
  have hk : ∀ ms : List (Bytes × JV), (∀ k j, (k, j) ∈ ms → k.length < 65536 ∧ ∃ z, j = .int z) → ShortKeys (.obj ms) := by
    intro ms h
    refine .obj (fun k j hm => (h k j hm).1) ?_
    intro k j hm
    obtain ⟨z, rfl⟩ := (h k j hm).2
    exact .int
  obtain ⟨x, h1, h2⟩ := C24_complete ⟨100, 0, 50⟩ hG (w := []) (r := []) hws ht (by simp)
    (hk _ (by intro k j h; simp at h; rcases h with h | h <;> simp [h.1, h.2])) (by decide)
  obtain ⟨x', h1', h2'⟩ := C24_complete ⟨100, 0, 50⟩ hG (w := []) (r := []) hws ht' (by simp)
    (hk _ (by intro k j h; simp at h; rcases h with h | h <;> simp [h.1, h.2])) (by decide)
  simp only [List.nil_append, List.append_nil] at h1 h1'
  obtain ⟨m, rfl⟩ := obj_of_shows h2
  obtain ⟨m', rfl⟩ := obj_of_shows h2'
  have h2' := shows_perm (List.Perm.swap _ _ []) (by decide) h2'
  have hof : ∀ k j, (k, j) ∈ [(([97] : Bytes), JV.int 1), ([114], .int 2)] → ObjFree j := by
    intro k j h
    simp at h
    rcases h with h | h <;> (rw [h.2]; exact .int)
  refine ⟨m, m', h1, h1', h2, h2', shows_find h2 h2' hof, ?_⟩
  have o1 : keyOrder ⟨100, 0, 50⟩ textAR = some [[97], [114]] := by decide +kernel
  have o2 : keyOrder ⟨100, 0, 50⟩ textRA = some [[114], [97]] := by decide +kernel
  unfold keyOrder at o1 o2
  rw [h1] at o1
  rw [h1'] at o2
  simp only [Option.some.injEq] at o1 o2
  rw [print_bindings, print_bindings]
  cases hb : SMap.bindings m with
  | nil => rw [hb] at o1; cases o1
  | cons p ps =>
    cases hb' : SMap.bindings m' with
    | nil => rw [hb'] at o2; cases o2
    | cons q qs =>
      rw [hb, List.map_cons, List.cons.injEq] at o1
      rw [hb', List.map_cons, List.cons.injEq] at o2
      rw [← printElems_eq, ← printElems_eq]
      simp only [List.map_cons, Value.printElems, o1.1, o2.1]
      simp

end Eni.Props
