import Verif.Proofs.VectorObj
/-!
# C105: a vector of objects

`OCls` describes an element type: whether zero bytes are an object (`zeroVal`), whether `operator=` overwrites its target without looking at it
(`blind`), and whether an object may be moved by copying its bytes (`reloc`). An ordinary class is not `blind`: its `operator=` releases what the
target owns. `json::Value` is `blind` and `reloc`; `std::string` is neither.
-/
namespace Eni.Props
open Spec OVec
variable {α : Type}

/-- C105, what holds for an ordinary class, provided that zero bytes are an object and objects may be moved by copying bytes: a vector constructed
with the values `xs` behaves like a sequence as long as it never has more elements than it was constructed with (after `clear`: no element). When it
is destroyed, as many objects as it was constructed with remain, and one more for every `emplace_back`. Missing: see the theorems `_false`. -/
theorem C105_ordinary_partial (c : OCls α) (hb : c.blind = false) (hz : c.zeroVal ≠ none) (hr : c.reloc = true) (xs : List α) (ops : List (Op α))
    (hp : OPres c.sz c.dflt xs ops) (hw : NeverAbove c.dflt xs.length xs ops) :
    ∃ v v', ofList c xs = .ok v ∧ run c v ops = .ok (v', reports c.dflt xs ops) ∧ SeenElems c v' (final c.dflt xs ops) ∧
      (clear v').made = (clear v').released + (xs.length + emplaced ops) := by
  obtain ⟨v, e, i, m, r, -⟩ := ofList_inv c (.inl hz) xs
  obtain ⟨v', zs', e', i', n, k1, k2⟩ := run_ok c hr ops v xs xs i hp (.inr hw)
  refine ⟨v, v', e, e', elems_of_inv c i', ?_⟩
  simp only [hb] at k2
  show v'.made = v'.released + _
  simp at k2
  omega

/-- C105 is false of the code (1): an ordinary class. Whatever the history, as soon as the vector gets more elements than it was constructed with,
`operator=` is applied to indeterminate bytes. -/
theorem C105_growth_false (c : OCls α) (hb : c.blind = false) (hz : c.zeroVal ≠ none) (hr : c.reloc = true) (xs : List α) (ops : List (Op α))
    (hp : OPres c.sz c.dflt xs ops) (hw : ¬ NeverAbove c.dflt xs.length xs ops) :
    ∃ v, ofList c xs = .ok v ∧ run c v ops = .ub .uninit := by
  obtain ⟨v, e, i, -⟩ := ofList_inv c (.inl hz) xs
  exact ⟨v, e, run_ub c hr hb ops v xs xs i hp hw⟩

/-- C105 is false of the code (2): an ordinary class, a vector constructed without arguments. No element can ever be added: `push_back`,
`emplace_back`, `insert`, `assign` and `resize` apply `operator=` to indeterminate bytes. No further assumption on the class. -/
theorem C105_first_element_false (c : OCls α) (hb : c.blind = false) (a : α) (as : List α) (n : Nat) (h1 : Fits c.sz 1)
    (ha : Fits c.sz (as.length + 1)) (hn : Fits c.sz (n + 1)) :
    step c empty (.pushBack a) = .ub .uninit ∧ step c empty (.emplaceBack a) = .ub .uninit ∧
    step c empty (.insert 0 (a :: as)) = .ub .uninit ∧ step c empty (.assign (a :: as)) = .ub .uninit ∧
    step c empty (.resize (n + 1) a) = .ub .uninit := by
  have res : ∀ (k : Nat), Fits c.sz (k + 1) → ∃ m, reserve c (empty : OVec α) (k + 1) = .ok ⟨some (block [] (m + 1)), 0, k + 1, 0, 0⟩ ∧ k ≤ m := by
    intro k hk
    have hk2 : k + 1 ≤ 9223372036854775808 := by
      unfold Fits at hk
      have := Nat.mul_le_mul_right (2 * (k + 1)) (show 1 ≤ c.sz from c.sz_pos)
      omega
    obtain ⟨r, hr1, hr2, -⟩ := Vec.growLoop_spec hk2 (show (empty : OVec α).alloc < k + 1 from Nat.succ_pos k)
    refine ⟨r - 1, ?_, by omega⟩
    rw [reserve, if_neg (by simp [empty]), hr1]
    obtain ⟨r, rfl⟩ : ∃ r', r = r' + 1 := ⟨r - 1, by omega⟩
    simp [empty, block]
  have blk : ∀ (m k : Nat), Fits c.sz (k + 1) → k ≤ m → Blk (⟨some (block [] (m + 1)), 0, k + 1, 0, 0⟩ : OVec α) [] :=
    fun m k _ hm => ⟨⟨m + 1, by simp; omega, .inl rfl⟩, by simp⟩
  have push : pushBack c (empty : OVec α) a = .ub .uninit := by
    obtain ⟨m, e, hm⟩ := res 0 h1
    rw [pushBack, show (empty : OVec α).size + 1 = 0 + 1 from rfl, e]
    simp only [Res.ok_bind]
    rw [write_ub c hb (blk m 0 h1 hm) (by simp) (by simp) (by simp)]
    rfl
  have rsz : ∀ (k : Nat) (x : α), Fits c.sz (k + 1) → resize c (empty : OVec α) (k + 1) x = .ub .uninit := by
    intro k x hk
    obtain ⟨m, e, hm⟩ := res k hk
    rw [resize, e]
    simp only [Res.ok_bind]
    rw [if_pos (by simp), write_ub c hb (blk m k hk hm) (by simp) (by simp) (by simp)]
    rfl
  refine ⟨?_, ?_, ?_, ?_, ?_⟩
  · rw [step, push]; rfl
  · rw [step, emplaceBack, push]; rfl
  · rw [step, OVec.insert, if_neg (by simp), show (empty : OVec α).size + (a :: as).length = as.length + 1 by simp [empty], rsz _ _ ha]; rfl
  · rw [step, assign, List.length_cons, rsz _ _ ha]; rfl
  · rw [step, rsz _ _ hn]; rfl

/-- C105 is false of the code (3): if zero bytes are not an object, no vector with elements can be constructed at all (unless `operator=` is
`blind`), and `Vector(n)` gives elements that cannot be read. -/
theorem C105_construct_false (c : OCls α) (hz : c.zeroVal = none) (xs : List α) (hne : xs ≠ []) (n i : Nat) (hi : i < n) :
    (c.blind = false → ofList c xs = .ub .uninit) ∧ at_ c (mkN n) i = .ub .uninit := by
  constructor
  · intro hb
    cases xs with
    | nil => exact absurd rfl hne
    | cons a as => simp [ofList, write, mkN, put, List.replicate_succ, over, hb, hz]
  · simp [at_, mkN, readO, hz, hi]

/-- C105 is false of the code (4): if an object does not survive being moved by copying its bytes (a `std::string` with a pointer into itself), every
element is lost when more memory is needed, whatever the history so far. -/
theorem C105_move_false (c : OCls α) (hr : c.reloc = false) (hz : c.zeroVal ≠ none ∨ c.blind = true) (xs : List α) (hne : xs ≠ []) (n : Nat)
    (hn : xs.length < n) (hf : Fits c.sz n) (i : Nat) (hi : i < xs.length) :
    ∃ v v', ofList c xs = .ok v ∧ reserve c v n = .ok v' ∧ v'.size = xs.length ∧ at_ c v' i = .ub .uninit := by
  obtain ⟨v, e, iv, -, -, ha⟩ := ofList_inv c hz xs
  have hn2 : n ≤ 9223372036854775808 := by
    unfold Fits at hf
    have := Nat.mul_le_mul_right (2 * n) (show 1 ≤ c.sz from c.sz_pos)
    omega
  obtain ⟨r, hr1, hr2, -⟩ := Vec.growLoop_spec hn2 (by omega : v.alloc < n)
  obtain ⟨m, hm, hd | ⟨-, h0, -⟩⟩ := iv.blk.data
  · have hs := iv.size
    have e2 : reserve c v n = .ok { v with
        data := some ((List.replicate (block xs m).length (OCell.raw : OCell α)).take r
          ++ List.replicate (r - (List.replicate (block xs m).length (OCell.raw : OCell α)).length) OCell.raw), alloc := n } := by
      rw [reserve, if_neg (by omega), hr1]
      simp [hd, hr]
    refine ⟨v, _, e, e2, hs, ?_⟩
    have hraw : ((List.replicate (block xs m).length (OCell.raw : OCell α)).take r
        ++ List.replicate (r - (List.replicate (block xs m).length (OCell.raw : OCell α)).length) OCell.raw)[i]? = some .raw := by
      have hb : (block xs m).length = xs.length + m := block_length xs m
      rw [List.getElem?_append_left (by simp; omega), List.getElem?_take]
      rw [if_pos (by omega), List.getElem?_replicate, if_pos (by omega)]
    simp only [at_, readO, hraw]
    rw [if_neg (by omega)]
    rfl
  · exact absurd h0 hne

/-- C105 is false of the code (5): nothing is destroyed. A vector of an ordinary class constructed with `xs` and destroyed at once leaves all its
elements behind. -/
theorem C105_destroy_false (c : OCls α) (hz : c.zeroVal ≠ none ∨ c.blind = true) (xs : List α) :
    ∃ v, ofList c xs = .ok v ∧ (clear v).made = xs.length ∧ (clear v).released = 0 := by
  obtain ⟨v, e, -, m, r, -⟩ := ofList_inv c hz xs
  exact ⟨v, e, m, r⟩

/-- C105, what holds for `json::Value` and every class whose `operator=` overwrites its target and whose objects may be moved by copying bytes: every
history from `Vector()` on behaves like a sequence. Missing: nothing that was copied into the vector is ever released. -/
theorem C105_blind_partial (c : OCls α) (hb : c.blind = true) (hr : c.reloc = true) (ops : List (Op α)) (hp : OPres c.sz c.dflt [] ops) :
    ∃ v', run c empty ops = .ok (v', reports c.dflt [] ops) ∧ SeenElems c v' (final c.dflt [] ops) ∧ (clear v').released = 0 ∧
      (final c.dflt [] ops).length + emplaced ops ≤ (clear v').made := by
  have i0 : Inv (empty : OVec α) [] [] := ⟨blk_null rfl rfl, rfl, ⟨[], rfl⟩⟩
  obtain ⟨v', zs', e, i, n, k1, k2⟩ := run_ok c hr ops empty [] [] i0 hp (.inl hb)
  refine ⟨v', e, elems_of_inv c i, ?_, ?_⟩
  · show v'.released = 0
    simpa [hb, empty] using k2
  · have h := run_made ops e
    have hs := i.size
    show _ ≤ v'.made
    simp [empty] at h
    omega

/-- A class like a reference-counted string: zero bytes are the empty string, `operator=` releases the target. -/
def strCls : OCls String := ⟨8, "", some "", false, true, by decide⟩
/-- `json::Value`: `operator=` overwrites; zero bytes are `null` (here: 0). -/
def valCls : OCls Nat := ⟨24, 0, some 0, true, true, by decide⟩
/-- A class like `std::string` with a buffer inside the object: zero bytes are no object, and objects cannot be moved by copying bytes. -/
def ssoCls : OCls String := ⟨32, "", none, false, false, by decide⟩

example : run strCls ⟨some [.obj "a", .obj "b"], 2, 2, 2, 0⟩ [.popBack, .pushBack "c", .at_ 1]
    = .ok (⟨some [.obj "a", .obj "c"], 2, 2, 3, 1⟩, [.val "b", .done, .val "c"]) := by decide +kernel
example : ∃ v v', ofList strCls ["a", "b"] = .ok v ∧ run strCls v [.popBack, .pushBack "c", .at_ 1] = .ok (v', reports "" ["a", "b"] [.popBack, .pushBack "c", .at_ 1]) ∧
    SeenElems strCls v' ["a", "c"] ∧ (clear v').made = (clear v').released + 2 :=
  C105_ordinary_partial strCls rfl (by decide) rfl ["a", "b"] [.popBack, .pushBack "c", .at_ 1]
    (by simp [OPres, after, seqOp, vstep, VPre, Fits, strCls]) (by simp [NeverAbove, after, seqOp, vstep])
example : ∃ v, ofList strCls ["a"] = .ok v ∧ run strCls v [.pushBack "c"] = .ub .uninit :=
  C105_growth_false strCls rfl (by decide) rfl ["a"] [.pushBack "c"]
    (by simp [OPres, after, seqOp, vstep, VPre, Fits, strCls]) (by simp [NeverAbove, after, seqOp, vstep])
example : ∃ v, ofList strCls ["a"] = .ok v ∧ run strCls v [.clear, .pushBack "c"] = .ub .uninit :=
  C105_growth_false strCls rfl (by decide) rfl ["a"] [.clear, .pushBack "c"]
    (by simp [OPres, after, seqOp, vstep, VPre, Fits, strCls]) (by simp [NeverAbove, after, seqOp, vstep])
example := C105_first_element_false ssoCls rfl "a" ["b"] 3 (by simp [Fits, ssoCls]) (by simp [Fits, ssoCls]) (by simp [Fits, ssoCls])
example := C105_construct_false ssoCls rfl ["a"] (by simp) 3 1 (by decide)
example := C105_move_false { strCls with reloc := false } rfl (.inl (by decide)) ["a"] (by simp) 2 (by decide) (by simp [Fits, strCls]) 0 (by decide)
example := C105_destroy_false valCls (.inr rfl) [1, 2, 3]
example : ∃ v', run valCls empty [.pushBack 5, .emplaceBack 6, .insert 0 [7]] = .ok (v', [.done, .done, .done]) ∧ SeenElems valCls v' [7, 5, 6] ∧
    (clear v').released = 0 ∧ 3 + 1 ≤ (clear v').made :=
  C105_blind_partial valCls rfl rfl [.pushBack 5, .emplaceBack 6, .insert 0 [7]] (by simp [OPres, after, seqOp, vstep, VPre, Fits, valCls])

end Eni.Props
