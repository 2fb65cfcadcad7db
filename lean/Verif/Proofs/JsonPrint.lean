import Verif.Proofs.JsonLayout
/-!
# Printing
-/
namespace Eni
namespace Json
open Spec

set_option linter.unusedSimpArgs false

/-! ### the recursive equations without bookkeeping -/

theorem print_arr (vs : List Value) : Value.print (.arr vs) = 91 :: Value.printElems 0 (vs.map Value.print) ++ [93] := by
  rw [Value.print]
  congr 3
  conv => rhs; rw [← List.attach_map_subtype_val vs, List.map_map]
  rfl

theorem print_obj (m : Table (SEntry Value)) :
    Value.print (.obj m) = [123, 10] ++ Value.printMembers true ((SMap.bindings m).map fun kv => (kv.1, Value.print kv.2)) ++ [10, 125] := by
  rw [Value.print]
  congr 3
  unfold SMap.bindings
  rw [List.map_map]
  conv => rhs; rw [← List.attach_map_subtype_val m.entries, List.map_map]
  rfl

theorem printElems_succ (i : Nat) (es : List Bytes) : Value.printElems (i + 1) es = es.flatMap (fun e => 44 :: e) := by
  induction es generalizing i with
  | nil => rfl
  | cons e es ih => simp [Value.printElems, ih]

theorem printElems_eq (es : List Bytes) : Value.printElems 0 es = [44].intercalate es := by
  cases es with
  | nil => rfl
  | cons e es =>
    simp only [Value.printElems, printElems_succ]
    induction es generalizing e with
    | nil => simp [List.intercalate]
    | cons e' es ih =>
      have := ih e'
      simp only [List.intercalate, List.intersperse, List.flatten_cons] at this ⊢
      simp at this ⊢
      exact this

theorem printMembers_false (ms : List (Bytes × Bytes)) : Value.printMembers false ms = ms.flatMap (fun kv => 44 :: (kv.1 ++ 58 :: kv.2)) := by
  induction ms with
  | nil => rfl
  | cons e es ih => obtain ⟨k, v⟩ := e; simp [Value.printMembers, ih]

theorem printMembers_eq (ms : List (Bytes × Bytes)) :
    Value.printMembers true ms = [44].intercalate (ms.map fun kv => kv.1 ++ 58 :: kv.2) := by
  rw [← printElems_eq]
  cases ms with
  | nil => rfl
  | cons e es =>
    obtain ⟨k, v⟩ := e
    simp only [Value.printMembers, printMembers_false, Value.printElems, List.map_cons, printElems_succ]
    simp [List.flatMap_map]

/-! ### integers -/

theorem decVal_snoc (ds : Bytes) (c : UInt8) : decVal (ds ++ [c]) = decVal ds * 10 + (c.toNat - 48) := by
  simp [decVal]

theorem digit_toUInt8 {d : Nat} (h : d < 10) : (48 + d).toUInt8.toNat = 48 + d := by
  show (48 + d) % 256 = 48 + d
  omega

theorem natDec_spec (n : Nat) : (∀ c ∈ Value.natDec n, Digit c) ∧ decVal (Value.natDec n) = n ∧ Value.natDec n ≠ [] ∧
    ((Value.natDec n).head? = some 48 → Value.natDec n = [48]) := by
  induction n using Nat.strongRecOn with
  | ind n ih =>
    rw [Value.natDec]
    split
    · rename_i h
      have hd := digit_toUInt8 h
      refine ⟨?_, ?_, by simp, ?_⟩
      · intro c hc
        simp only [List.mem_singleton] at hc
        subst hc
        unfold Digit; omega
      · simp [decVal]; omega
      · simp
    · rename_i h
      obtain ⟨h1, h2, h3, h4⟩ := ih (n / 10) (by omega)
      have hd := digit_toUInt8 (d := n % 10) (by omega)
      refine ⟨?_, ?_, by simp, ?_⟩
      · intro c hc
        rcases List.mem_append.mp hc with hc | hc
        · exact h1 c hc
        · simp only [List.mem_singleton] at hc
          subst hc
          unfold Digit; omega
      · rw [decVal_snoc, h2, hd]; omega
      · intro hh
        rw [List.head?_append_of_ne_nil _ h3] at hh
        have := h4 hh
        rw [this] at h2
        have : decVal [48] = 0 := rfl
        omega

theorem natDec_text (n : Nat) : NatText (Value.natDec n) n := by
  obtain ⟨h1, h2, h3, h4⟩ := natDec_spec n
  exact ⟨h3, h1, h4, h2.symm⟩

theorem print_int_text (z : Int) : IntText (Value.s256Print z) z := by
  unfold Value.s256Print
  split
  · have : z = -(z.natAbs : Int) := by omega
    conv => arg 2; rw [this]
    exact .neg (natDec_text _)
  · have : z = (z.natAbs : Int) := by omega
    conv => arg 2; rw [this]
    exact .nonneg (natDec_text _)

theorem wrap256_of_lt {z : Int} (h : z.natAbs < 2 ^ 256) : wrap256 z = z := by
  unfold wrap256
  rw [Nat.mod_eq_of_lt h]
  exact Int.sign_mul_natAbs z

/-- decimal numerals are unique -/
theorem decVal_lower : ∀ (ds : Bytes) (x : UInt8), (∀ c ∈ x :: ds, Digit c) → x ≠ 48 → 10 ^ ds.length ≤ decVal (x :: ds) := by
  intro ds
  induction ds using List.reverseRecOn with
  | nil =>
    intro x h hx
    have := h x List.mem_cons_self
    have hx' : x.toNat ≠ 48 := fun e => hx (UInt8.toNat_inj.mp e)
    simp only [Digit, decVal, List.foldl, List.length_nil, Nat.pow_zero] at *
    omega
  | append_singleton ds c ih =>
    intro x h hx
    rw [← List.cons_append, decVal_snoc]
    have := ih x (fun y hy => h y (by rw [← List.cons_append]; exact List.mem_append_left _ hy)) hx
    simp only [List.length_append, List.length_cons, List.length_nil, Nat.pow_succ] at this ⊢
    omega

theorem natText_unique {t : Bytes} {n : Nat} (h : NatText t n) : t = Value.natDec n := by
  induction t using List.reverseRecOn generalizing n with
  | nil => exact absurd rfl h.1
  | append_singleton t c ih =>
    obtain ⟨h1, h2, h3, h4⟩ := h
    have hc : Digit c := h2 c (by simp)
    have hcv : (48 + (c.toNat - 48)).toUInt8 = c := by
      have : 48 + (c.toNat - 48) = c.toNat := by have := hc.1; omega
      rw [this]
      simp
    rw [decVal_snoc] at h4
    have hlt : c.toNat - 48 < 10 := by have := hc.2; omega
    cases t with
    | nil =>
      have : decVal [] = 0 := rfl
      rw [this] at h4
      rw [Value.natDec, if_pos (by omega)]
      simp only [List.nil_append]
      rw [h4]
      simp only [Nat.zero_mul, Nat.zero_add]
      rw [hcv]
    | cons x ds =>
      have hx : x ≠ 48 := by
        intro hx
        have := h3 (by rw [hx]; rfl)
        simp at this
      have hlow := decVal_lower ds x (fun y hy => h2 y (List.mem_append_left _ hy)) hx
      have hpos : 0 < 10 ^ ds.length := Nat.pow_pos (by decide)
      have ht : NatText (x :: ds) (decVal (x :: ds)) :=
        ⟨by simp, fun y hy => h2 y (List.mem_append_left _ hy), fun hh => absurd (by simpa using hh) hx, rfl⟩
      have := ih ht
      rw [Value.natDec, if_neg (by omega)]
      have e1 : n / 10 = decVal (x :: ds) := by omega
      have e2 : n % 10 = c.toNat - 48 := by omega
      rw [e1, e2, ← this, hcv]

/-! ### strings -/

theorem printChar_body {c : UInt8} {b s : Bytes} (h : StrBody b s) : StrBody (Value.printChar c ++ b) (c :: s) := by
  unfold Value.printChar
  split
  · rename_i hc
    rcases hc with rfl | rfl
    · exact .esc (c := 34) rfl h
    · exact .esc (c := 92) rfl h
  · rename_i hc
    split
    · rename_i hlt
      have key : c < 32 → hexOf (Value.hexUp (c.toNat / 16)) = some (c.toNat / 16) ∧ hexOf (Value.hexUp (c.toNat % 16)) = some (c.toNat % 16) :=
        forall_byte (p := fun c => c < 32 → hexOf (Value.hexUp (c.toNat / 16)) = some (c.toNat / 16) ∧
          hexOf (Value.hexUp (c.toNat % 16)) = some (c.toNat % 16)) (by decide +kernel) c
      obtain ⟨k1, k2⟩ := key hlt
      have := StrBody.uni (h1 := 48) (h2 := 48) (n1 := 0) (n2 := 0) rfl rfl k1 k2 h
      have e : (0 * 4096 + 0 * 256 + c.toNat / 16 * 16 + c.toNat % 16).toUInt8 = c := by
        have : 0 * 4096 + 0 * 256 + c.toNat / 16 * 16 + c.toNat % 16 = c.toNat := by omega
        rw [this]
        simp
      rw [e] at this
      exact this
    · exact .raw (fun e => hc (.inl e)) (fun e => hc (.inr e)) h

theorem printStr_text (s : Bytes) : JText (Value.printStr s) (.str s) := by
  have : StrBody (s.flatMap Value.printChar) s := by
    induction s with
    | nil => exact .nil
    | cons c s ih => exact printChar_body ih
  exact .str this

/-! ### values without members -/

theorem printElems_text : ∀ (es : List Bytes) (js : List JV), es ≠ [] → es.length = js.length →
    (∀ (i : Nat) e j, es[i]? = some e → js[i]? = some j → JText e j) → Elems (Value.printElems 0 es) js := by
  intro es
  induction es with
  | nil => intro js h; exact absurd rfl h
  | cons e es ih =>
    intro js _ hl h
    cases js with
    | nil => simp at hl
    | cons j js =>
      simp only [List.length_cons, Nat.add_right_cancel_iff] at hl
      have h0 := h 0 e j rfl rfl
      cases es with
      | nil =>
        have : js = [] := List.eq_nil_of_length_eq_zero hl.symm
        subst this
        have := Elems.one (w := []) (w' := []) (by simp [WS]) h0 (by simp [WS])
        simpa [Value.printElems] using this
      | cons e' es =>
        have hr := ih js (by simp) hl (fun i e j h1 h2 => h (i + 1) e j h1 h2)
        have := Elems.cons (w := []) (w' := []) (by simp [WS]) h0 (by simp [WS]) hr
        simpa [Value.printElems, printElems_succ] using this

theorem bindings_nil {m : SMap Value} (h : ((SMap.bindings m).map Prod.fst).Perm (([] : List (Bytes × JV)).map Prod.fst).dedup) :
    SMap.bindings m = [] := by
  simp only [List.map_nil, List.dedup_nil, List.perm_nil, List.map_eq_nil_iff] at h
  exact h

/-- what a value without members prints is a text that denotes it -/
theorem print_text {v : Value} {j : JV} (hv : Shows v j) : NoMembers j → InRange j → JText (Value.print v) j := by
  induction hv with
  | @int z =>
    intro _ hr
    cases hr with
    | int hr =>
      have := JText.int (print_int_text z)
      rw [wrap256_of_lt hr] at this
      rw [Value.print]
      exact this
  | @bool b =>
    intro _ _
    cases b
    · rw [Value.print]; exact .false_
    · rw [Value.print]; exact .true_
  | str =>
    intro _ _
    rw [Value.print]; exact printStr_text _
  | @arr vs js hl hsh ih =>
    intro hn hr
    cases hn with
    | arr hn =>
      cases hr with
      | arr hr =>
        rw [print_arr]
        by_cases hvs : vs = []
        · subst hvs
          have : js = [] := List.eq_nil_of_length_eq_zero (by simpa using hl.symm)
          subst this
          exact .arrNil (w := []) (by simp [WS])
        · refine .arr (printElems_text _ _ (by simpa using hvs) (by simpa using hl) ?_)
          intro i e j h1 h2
          rw [List.getElem?_map] at h1
          obtain ⟨v, hv, rfl⟩ := Option.map_eq_some_iff.mp h1
          exact ih i v j hv h2 (hn j (List.mem_of_getElem? h2)) (hr j (List.mem_of_getElem? h2))
  | @obj m ms h1 h2 h3 h4 h5 h6 _ =>
    intro hn _
    cases hn with
    | obj =>
      rw [print_obj, bindings_nil h2]
      exact .objNil (w := [10, 10]) (by simp [WS])

/-- object-free values are determined by what they show -/
theorem shows_unique {v : Value} {j : JV} (hv : Shows v j) : ObjFree j → ∀ x, Shows x j → x = v := by
  induction hv with
  | int => intro _ x hx; cases hx; rfl
  | bool => intro _ x hx; cases hx; rfl
  | str => intro _ x hx; cases hx; rfl
  | @arr vs js hl _ ih =>
    intro hf x hx
    cases hf with
    | arr hf =>
      cases hx with
      | @arr ws _ hl' hw =>
        congr 1
        apply List.ext_getElem?
        intro i
        by_cases hi : i < js.length
        · have e1 : ws[i]? = some ws[i] := List.getElem?_eq_getElem (by omega)
          have e2 : vs[i]? = some vs[i] := List.getElem?_eq_getElem (by omega)
          have e3 : js[i]? = some js[i] := List.getElem?_eq_getElem hi
          rw [e1, e2]
          congr 1
          exact ih i _ _ e2 e3 (hf _ (List.mem_of_getElem? e3)) _ (hw i _ _ e1 e3)
        · rw [List.getElem?_eq_none (by omega), List.getElem?_eq_none (by omega)]
  | obj => intro hf; cases hf

theorem ObjFree.noMembers {j : JV} (h : ObjFree j) : NoMembers j := by
  induction h with
  | int => exact .int
  | bool => exact .bool
  | str => exact .str
  | arr _ ih => exact .arr ih

theorem NoMembers.shortKeys {j : JV} (h : NoMembers j) : ShortKeys j := by
  induction h with
  | int => exact .int
  | bool => exact .bool
  | str => exact .str
  | arr _ ih => exact .arr ih
  | obj => exact .obj (by simp) (by simp)

/-- without members there is no limit on the size of the value -/
theorem evOf_delivers_noMembers {es : List Ev} {j : JV} (h : EvOf es j) : NoMembers j → Delivers es j := by
  refine EvOf.rec (motive_1 := fun es j _ => NoMembers j → Delivers es j)
    (motive_2 := fun es js _ => (∀ j ∈ js, NoMembers j) → DeliversElems es js)
    (motive_3 := fun es ms _ => True)
    ?_ ?_ ?_ ?_ ?_ ?_ ?_ ?_ ?_ h
  · intro b _
    exact ⟨.bool b, .bool, fun _ => .bool, fun cb => by rw [cbRun_single]; rfl⟩
  · intro t z ht _
    refine ⟨.int (wrap256 z), .int, fun _ => .int, fun cb => ?_⟩
    rw [cbRun_single, ← s256OfText_eq ht]
    rfl
  · intro s _
    exact ⟨.str s, .str, fun _ => .str, fun cb => by rw [cbRun_single]; rfl⟩
  · intro es js _ ih hn
    cases hn with
    | arr hn =>
      obtain ⟨xs, h1, h2, h3, h4⟩ := ih hn
      refine ⟨.arr xs, .arr h2, ?_, ?_⟩
      · intro hs
        cases hs with
        | arr hs => exact .arr h1 (h3 hs)
      · intro cb
        simp only [cbRun, cbStep, Res.ok_bind]
        rw [cbRun_append, h4, Res.ok_bind, cbRun_single]
        simp only [cbStep, copyTop, List.nil_append]
  · intro es ms hms _ hn
    cases hn with
    | obj =>
      cases hms
      exact evOf_delivers (.obj .nil) (by simp)
  · intro _
    exact ⟨[], rfl, by simp, by simp, by intro vs key rest root; simp [cbRun]⟩
  · intro es js e j _ _ ih1 ih2 hn
    obtain ⟨x, hu, hsh, hrun⟩ := ih1 (hn _ List.mem_cons_self)
    obtain ⟨xs, h1, h2, h3, h4⟩ := ih2 (fun j hj => hn j (List.mem_cons_of_mem _ hj))
    refine ⟨x :: xs, by simp [h1], ?_, ?_, ?_⟩
    · intro v hv
      rcases List.mem_cons.mp hv with rfl | hv
      · exact hu
      · exact h2 v hv
    · intro hs i v j' hi hj
      cases i with
      | zero =>
        simp only [List.getElem?_cons_zero, Option.some.injEq] at hi hj
        subst hi hj
        exact hsh (hs _ List.mem_cons_self)
      | succ i =>
        simp only [List.getElem?_cons_succ] at hi hj
        exact h3 (fun j hj => hs j (List.mem_cons_of_mem _ hj)) i v j' hi hj
    · intro vs key rest root
      rw [cbRun_append, hrun]
      simp only [setParent, Res.ok_bind]
      rw [h4]
      simp
  · trivial
  · intros; trivial

/-! ### the whole parser -/

/-- running the parser on a text of the grammar -/
theorem parse_text {L : Layout} {w t r : Bytes} {j : JV} (hw : WS w) (ht : JText t j) (hr : (∃ z, j = .int z) → NoDigit r)
    (hL : Reads L j) (hlen : NoMembers j ∨ (w ++ (t ++ r)).length ≤ 1073643498) :
    ∃ x, parse L (w ++ (t ++ r)) = .ok ⟨true, x⟩ ∧ Usable x ∧ (ShortKeys j → Shows x j) := by
  obtain ⟨es, h1, h2⟩ := accepts L ht w r [] ((w ++ (t ++ r)).length + 1) hw (by simp; omega) hr hL
  have hpost := parseValue_post L ((w ++ (t ++ r)).length + 1) ⟨w ++ (t ++ r), []⟩ (by simp)
  rw [h2] at hpost
  obtain ⟨w', t', j', es', _, _, _, hit, hev, hlen'⟩ := hpost
  simp only [List.nil_append] at hev hit
  subst hev
  have hD : Delivers es j := by
    rcases hlen with h | h
    · exact evOf_delivers_noMembers h1 h
    · refine evOf_delivers h1 ?_
      have := congrArg List.length hit
      simp only [List.length_append] at this h
      omega
  obtain ⟨x, hu, hsh, hrun⟩ := hD
  refine ⟨x, ?_, hu, hsh⟩
  unfold parse
  rw [h2]
  simp only [List.nil_append]
  rw [hrun]
  rfl

end Json
end Eni
