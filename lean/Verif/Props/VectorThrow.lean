import Verif.Proofs.VectorThrowCount
/-!
# C115: elements that refuse to be copied

`boom` says which copies of elements throw, counted over the whole program; the caller catches the exception and goes on using the vector. `OCls` is as
for C105 (Props/VectorObj): an ordinary class is not `blind`, and its vector must not have more elements than it was constructed with.
-/
namespace Eni.Props
open Spec OVec
variable {α : Type}

/-- C115, what holds: as long as no `push_back` or `emplace_back` fails, every history behaves as the specification says, whichever other copies fail: an
exception comes out of a call exactly if one of its copies fails, and `left` is what the vector then contains. Nothing undefined happens. Missing: see
the theorems `_false`. -/
theorem C115_exact_partial (c : OCls α) (boom : Nat → Bool) (hr : c.reloc = true) (hz : c.zeroVal ≠ none ∨ c.blind = true) (xs : List α) (n : Nat)
    (ops : List (Op α)) (hp : ThrPres c.sz c.dflt boom xs n ops) (hw : c.blind = true ∨ ThrNeverAbove c.dflt boom xs.length xs n ops) :
    ∃ v v', ofList c xs = .ok v ∧ OThr.run c boom v n ops = .ok (v', (thrRun c.dflt boom xs n ops).2) ∧
      SeenElems c v' (thrRun c.dflt boom xs n ops).1 := by
  obtain ⟨v, e, i, -⟩ := ofList_inv c hz xs
  obtain ⟨v', zs', e', i'⟩ := OThr.run_ok c hr boom ops v xs xs n i hp hw
  exact ⟨v, v', e, e', elems_of_inv c i'⟩

/-- C115, the same for a vector constructed without arguments. -/
theorem C115_empty_partial (c : OCls α) (boom : Nat → Bool) (hr : c.reloc = true) (hb : c.blind = true) (n : Nat) (ops : List (Op α))
    (hp : ThrPres c.sz c.dflt boom [] n ops) :
    ∃ v', OThr.run c boom empty n ops = .ok (v', (thrRun c.dflt boom [] n ops).2) ∧ SeenElems c v' (thrRun c.dflt boom [] n ops).1 := by
  have i0 : Inv (empty : OVec α) [] [] := ⟨blk_null rfl rfl, rfl, ⟨[], rfl⟩⟩
  obtain ⟨v', zs', e', i'⟩ := OThr.run_ok c hr boom ops empty [] [] n i0 hp (.inl hb)
  exact ⟨v', e', elems_of_inv c i'⟩

/-- C115, elements: whichever copies fail, every element of the vector is one it was constructed with, one that was given to a call, or the default
value. -/
theorem C115_elements_partial (c : OCls α) (boom : Nat → Bool) (hr : c.reloc = true) (hz : c.zeroVal ≠ none ∨ c.blind = true) (xs : List α) (n : Nat)
    (ops : List (Op α)) (hp : ThrPres c.sz c.dflt boom xs n ops) (hw : c.blind = true ∨ ThrNeverAbove c.dflt boom xs.length xs n ops) :
    ∃ v v' rs ys, ofList c xs = .ok v ∧ OThr.run c boom v n ops = .ok (v', rs) ∧ SeenElems c v' ys ∧
      ∀ y ∈ ys, y ∈ xs ∨ y = c.dflt ∨ ∃ op ∈ ops, y ∈ given op := by
  obtain ⟨v, v', e, e', s⟩ := C115_exact_partial c boom hr hz xs n ops hp hw
  exact ⟨v, v', _, _, e, e', s, fun y hy => OThr.mem_thrRun ops hy⟩

/-- C115, `resize`: if an exception comes out of it, the elements are the same as before. -/
theorem C115_resize (c : OCls α) (boom : Nat → Bool) (hr : c.reloc = true) (hz : c.zeroVal ≠ none ∨ c.blind = true) (xs : List α) (n : Nat)
    (ops : List (Op α)) (s : Nat) (a : α) (hp : ThrPres c.sz c.dflt boom xs n (ops ++ [.resize s a]))
    (hw : c.blind = true ∨ ThrNeverAbove c.dflt boom xs.length xs n (ops ++ [.resize s a])) {v v' : OVec α} {m : Nat} {rs : List (OThr.TRet α)}
    (h0 : ofList c xs = .ok v) (h : OThr.run c boom v n (ops ++ [.resize s a]) = .ok (v', m, rs)) (ht : rs.getLast? = some .thrown) :
    SeenElems c v' (thrRun c.dflt boom xs n ops).1 := by
  obtain ⟨w, w', e, e', se⟩ := C115_exact_partial c boom hr hz xs n _ hp hw
  obtain rfl : w = v := by rw [h0] at e; cases e; rfl
  rw [e'] at h
  obtain ⟨rfl, h2⟩ : w' = v' ∧ (thrRun c.dflt boom xs n (ops ++ [.resize s a])).2 = (m, rs) := by
    injection h with h; injection h with h1 h2; exact ⟨h1, h2⟩
  rw [OThr.thrRun_append] at se h2
  simp only [thrRun, thrStep] at se h2
  injection h2 with _ h3
  rw [← h3] at ht
  split at se
  · rename_i hf
    simp [hf] at ht
  · exact se

/-- C115, objects: an exception neither loses nor releases an object. Whichever copies fail and whatever the calls are (unless something undefined happens):
when a vector of an ordinary class is destroyed, as many objects remain as it was constructed with, and one more for every `emplace_back`, also
for one that fails. If `operator=` does not look at its target, nothing is ever released. -/
theorem C115_objects_partial (c : OCls α) (boom : Nat → Bool) (hz : c.zeroVal ≠ none ∨ c.blind = true) (xs : List α) (n : Nat) (ops : List (Op α))
    {v v' : OVec α} {m : Nat} {rs : List (OThr.TRet α)} (h0 : ofList c xs = .ok v) (h : OThr.run c boom v n ops = .ok (v', m, rs)) :
    (c.blind = false → (clear v').made = (clear v').released + (xs.length + emplaced ops)) ∧ (c.blind = true → (clear v').released = 0 ∧
      xs.length + emplaced ops ≤ (clear v').made) := by
  obtain ⟨w, e, i, hm, hk, -⟩ := ofList_inv c hz xs
  obtain rfl : w = v := by rw [h0] at e; cases e; rfl
  have nz : OThr.NoZero c w := by
    refine .inr fun cells hc hmem => ?_
    obtain ⟨k, -, hd | ⟨hd, -, -⟩⟩ := i.blk.data
    · rw [hd] at hc
      cases hc
      simp [block] at hmem
    · rw [hd] at hc; cases hc
  obtain ⟨k, k1, k2⟩ := OThr.bal_run ops nz h
  show (_ → v'.made = v'.released + _) ∧ (_ → v'.released = 0 ∧ _ ≤ v'.made)
  constructor
  · intro hb; simp [hb] at k2; omega
  · intro hb; simp [hb] at k2; omega

/-- C115 is false of the code (1): a `push_back` that fails makes the vector longer. Its last element is indeterminate: to look at it is undefined. -/
theorem C115_push_false (c : OCls α) (hr : c.reloc = true) (hb : c.blind = true) (xs : List α) (a : α) (hn : Fits c.sz (xs.length + 1))
    (boom : Nat → Bool) (n : Nat) (hf : boom n = true) :
    ∃ v v', ofList c xs = .ok v ∧ OThr.run c boom v n [.pushBack a] = .ok (v', n + 1, [.thrown]) ∧ v'.size = xs.length + 1 ∧
      at_ c v' xs.length = .ub .uninit := by
  obtain ⟨v, e, i, -⟩ := ofList_inv c (.inr hb) xs
  obtain ⟨v', zs', e', s, b, al, ez⟩ := OThr.pushBack_out c hr boom i a hn (.inl hb) n
  simp only [hf, if_true] at ez e'
  subst ez
  refine ⟨v, v', e, ?_, s, ?_⟩
  · simp [OThr.run, OThr.step, e', OThr.caught]
  · rw [at_, if_neg (by omega)]
    obtain ⟨m, hm, hd | ⟨hd, rfl, rfl⟩⟩ := b.data
    · rw [hd, readO, block_raw (Nat.le_refl _) (by omega)]
      rfl
    · simp at hm; omega

/-- C115 is false of the code (2): after `pop_back`, a `push_back` that fails brings the removed element back. -/
theorem C115_removed_false (c : OCls α) (hr : c.reloc = true) (hz : c.zeroVal ≠ none ∨ c.blind = true) (xs : List α) (a b : α)
    (hn : Fits c.sz (xs.length + 1)) (boom : Nat → Bool) (n : Nat) (h0 : boom n = false) (h1 : boom (n + 1) = true) :
    ∃ v v', ofList c (xs ++ [b]) = .ok v ∧ OThr.run c boom v n [.popBack, .pushBack a] = .ok (v', n + 2, [.ret (.val b), .thrown]) ∧
      SeenElems c v' (xs ++ [b]) := by
  obtain ⟨v, e, i, -⟩ := ofList_inv c hz (xs ++ [b])
  obtain ⟨v1, zs1, e1, i1, -⟩ := OThr.step_ok c hr boom i .popBack n (by simp [VPre, seqOp]) (.inr (by simp [after, seqOp, vstep]))
    (fun h => h.elim)
  have hpop : ∀ {w : OVec α} {r}, OThr.popBack c boom v n = .ok (⟨w, n + 1, false⟩, r) → w = { v with size := v.size - 1 } := by
    intro w r hw
    rw [OThr.popBack, if_neg (by rw [i.size]; simp), readO_blk c i.blk (i := v.size - 1) (by rw [i.size]; simp)] at hw
    simp only [Res.ok_bind] at hw
    injection hw with hw; injection hw with hw _; injection hw with hw _ _
    exact hw.symm
  have ht : thrStep c.dflt boom (xs ++ [b]) n (.popBack) = (xs, n + 1, .ret (.val b)) := by
    simp [thrStep, copies, firstFault, h0, after, reported, seqOp, vstep]
  rw [ht] at e1
  have hv1 : v1 = { v with size := v.size - 1 } := by
    rw [OThr.step] at e1
    obtain ⟨⟨⟨w, k, t⟩, r⟩, hp, hq⟩ := Res.bind_eq_ok.mp e1
    simp only [OThr.caught] at hq
    injection hq with hq; injection hq with hq1 hq2; injection hq2 with hq2 hq3
    cases t with
    | true => simp at hq3
    | false => subst hq1 hq2; exact hpop hp
  have i1 : Inv v1 xs (xs ++ [b]) := by
    subst hv1
    exact ⟨i.blk.congr rfl rfl, by simp [i.size], ⟨[b], rfl⟩⟩
  obtain ⟨v2, zs2, e2, s2, b2, al, ez⟩ := OThr.pushBack_out c hr boom i1 a hn (.inr (by simp)) (n + 1)
  simp only [h1, if_true] at ez e2
  subst ez
  refine ⟨v, v2, e, ?_, elems_of_inv c (zs := xs ++ [b]) ⟨b2, by simp [s2], ⟨[], by simp⟩⟩⟩
  rw [OThr.run, e1]
  simp [OThr.run, OThr.step, e2, OThr.caught]

/-- C115 is false of the code (3): an `insert` that fails when it begins to move elements leaves default values at the end. -/
theorem C115_insert_false (c : OCls α) (hr : c.reloc = true) (hb : c.blind = true) (xs as : List α) (i : Nat) (hi : i < xs.length)
    (hn : Fits c.sz (xs.length + as.length)) :
    ∃ v v', ofList c xs = .ok v ∧ OThr.run c (· == as.length) v 0 [.insert i as] = .ok (v', as.length + 1, [.thrown]) ∧
      SeenElems c v' (xs ++ List.replicate as.length c.dflt) := by
  have hq : ∀ w n, n + w ≤ as.length → firstFault (· == as.length) n w = none := by
    intro w
    induction w with
    | zero => intro n _; rfl
    | succ w ih => intro n h; rw [firstFault, if_neg (by simp; omega), ih (n + 1) (by omega)]; rfl
  have hf : firstFault (· == as.length) 0 (as.length + (xs.length - i) + as.length) = some as.length := by
    obtain ⟨k, hk⟩ : ∃ k, xs.length - i = k + 1 := ⟨xs.length - i - 1, by omega⟩
    rw [Nat.add_assoc, OThr.firstFault_add, hq _ _ (by omega), hk, show k + 1 + as.length = (k + as.length) + 1 by omega, firstFault,
      if_pos (by simp)]
    simp
  obtain ⟨v, v', e, e', s⟩ := C115_exact_partial c (· == as.length) hr (.inr hb) xs 0 [.insert i as]
    ⟨hn, fun h => h.elim, trivial⟩ (.inl hb)
  refine ⟨v, v', e, ?_, ?_⟩
  · rw [e']
    simp [thrRun, thrStep, copies, show i ≤ xs.length by omega, hf]
  · have : (thrRun c.dflt (· == as.length) xs 0 [.insert i as]).1 = xs ++ List.replicate as.length c.dflt := by
      simp only [thrRun, thrStep, copies, show i ≤ xs.length by omega, if_true, hf, left, Nat.lt_irrefl, if_false]
      rw [if_pos (by omega), Nat.sub_self, Nat.sub_zero, Nat.sub_zero, List.take_of_length_le (by simp), List.drop_eq_nil_of_le (Nat.le_refl _),
        List.append_nil]
    rw [this] at s
    exact s

/-- C115 is false of the code (4): an `erase` that fails at its second copy has lost an element and doubled another one. -/
theorem C115_erase_false (c : OCls α) (hr : c.reloc = true) (hz : c.zeroVal ≠ none ∨ c.blind = true) (xs : List α) (f l : Nat) (h1 : f < l)
    (h2 : l + 1 < xs.length) :
    ∃ v v', ofList c xs = .ok v ∧ OThr.run c (· == 1) v 0 [.erase f l] = .ok (v', 2, [.thrown]) ∧ SeenElems c v' (xs.set f xs[l]) := by
  obtain ⟨k, hk⟩ : ∃ k, xs.length - l = k + 2 := ⟨xs.length - l - 2, by omega⟩
  have hc : f < l ∧ l < xs.length := ⟨h1, by omega⟩
  have hf : firstFault (· == 1) 0 (xs.length - l) = some 1 := by
    rw [hk, firstFault, if_neg (by decide), firstFault, if_pos (by decide)]; rfl
  obtain ⟨v, v', e, e', s⟩ := C115_exact_partial c (· == 1) hr hz xs 0 [.erase f l] ⟨trivial, fun h => h.elim, trivial⟩
    (.inr ⟨by simp [after, seqOp, vstep, hc]; omega, trivial⟩)
  refine ⟨v, v', e, ?_, ?_⟩
  · rw [e']
    simp [thrRun, thrStep, copies, hc, hf]
  · have : (thrRun c.dflt (· == 1) xs 0 [.erase f l]).1 = xs.set f xs[l] := by
      simp only [thrRun, thrStep, copies, hc, and_self, if_true, hf, left]
      rw [List.drop_eq_getElem_cons (by omega : l < xs.length), List.set_eq_take_append_cons_drop, if_pos (by omega),
        List.take_succ_cons, List.take_zero, List.append_assoc]
      rfl
    rw [this] at s
    exact s

/-- C115 is false of the code (5): a `pop_back` whose result cannot be copied loses the element. -/
theorem C115_pop_false (c : OCls α) (hr : c.reloc = true) (hz : c.zeroVal ≠ none ∨ c.blind = true) (xs : List α) (b : α) (boom : Nat → Bool) (n : Nat)
    (hf : boom n = true) :
    ∃ v v', ofList c (xs ++ [b]) = .ok v ∧ OThr.run c boom v n [.popBack] = .ok (v', n + 1, [.thrown]) ∧ SeenElems c v' xs := by
  obtain ⟨v, v', e, e', s⟩ := C115_exact_partial c boom hr hz (xs ++ [b]) n [.popBack] ⟨by simp [VPre, seqOp], fun h => h.elim, trivial⟩
    (.inr ⟨by simp [after, seqOp, vstep], trivial⟩)
  refine ⟨v, v', e, ?_, ?_⟩
  · rw [e']
    simp [thrRun, thrStep, copies, firstFault, hf]
  · simpa [thrRun, thrStep, copies, firstFault, hf, left] using s

/-- A class like a reference-counted string: zero bytes are the empty string, `operator=` releases the target. -/
def thrStr : OCls String := ⟨8, "", some "", false, true, by decide⟩
/-- A class whose `operator=` overwrites its target. -/
def thrVal : OCls Nat := ⟨24, 0, some 0, true, true, by decide⟩

/-- The third copy fails: `insert(0, [7])` into `[5, 6]` has added a default value and moved the last element only. -/
example : ∃ v v', ofList thrVal [5, 6] = .ok v ∧ OThr.run thrVal (· == 2) v 0 [.insert 0 [7], .at_ 1] = .ok (v', 3, [.thrown, .ret (.val 6)]) ∧
    SeenElems thrVal v' [5, 6, 6] :=
  C115_exact_partial thrVal (· == 2) rfl (.inr rfl) [5, 6] 0 [.insert 0 [7], .at_ 1]
    (by refine ⟨by simp [VPre, seqOp, Fits, thrVal], fun h => h.elim, trivial, fun h => h.elim, trivial⟩) (.inl rfl)
example : ∃ v', OThr.run thrVal (· == 2) empty 0 [.pushBack 5, .pushBack 6, .resize 4 1, .at_ 2]
    = .ok (v', 3, [.ret .done, .ret .done, .thrown, .ret (.exc .invalidVectorIndex)]) ∧ SeenElems thrVal v' [5, 6] :=
  C115_empty_partial thrVal (· == 2) rfl rfl 0 [.pushBack 5, .pushBack 6, .resize 4 1, .at_ 2]
    (by refine ⟨by simp [VPre, seqOp, Fits, thrVal], fun _ => rfl, ?_⟩
        refine ⟨by simp [VPre, seqOp, Fits, thrVal, thrStep, copies, firstFault, after, vstep], fun _ => rfl, ?_⟩
        refine ⟨by simp [VPre, seqOp, Fits, thrVal], fun h => h.elim, trivial, fun h => h.elim, trivial⟩)
example : ∃ v v' rs ys, ofList thrStr ["a", "b", "c"] = .ok v ∧ OThr.run thrStr (· == 1) v 0 [.erase 0 1] = .ok (v', rs) ∧ SeenElems thrStr v' ys ∧
    ∀ y ∈ ys, y ∈ ["a", "b", "c"] ∨ y = "" ∨ ∃ op ∈ [Op.erase 0 1], y ∈ given op :=
  C115_elements_partial thrStr (· == 1) rfl (.inl (by decide)) ["a", "b", "c"] 0 [.erase 0 1] ⟨trivial, fun h => h.elim, trivial⟩
    (.inr ⟨by decide, trivial⟩)
example {v v' : OVec Nat} {m rs} (h0 : ofList thrVal [5, 6] = .ok v)
    (h : OThr.run thrVal (· == 1) v 0 ([.popBack] ++ [.resize 4 1]) = .ok (v', m, rs)) (ht : rs.getLast? = some .thrown) : SeenElems thrVal v' [5] :=
  C115_resize thrVal (· == 1) rfl (.inr rfl) [5, 6] 0 [.popBack] 4 1
    (by refine ⟨by simp [VPre, seqOp], fun h => h.elim, by simp [VPre, seqOp, Fits, thrVal], fun h => h.elim, trivial⟩) (.inl rfl) h0 h ht
example : (ofList thrVal [5, 6] >>= fun v => OThr.run thrVal (· == 1) v 0 ([.popBack] ++ [.resize 4 1]))
    = .ok (⟨some [.obj 5, .obj 6, .raw, .raw], 1, 4, 2, 0⟩, 2, [.ret (.val 6), .thrown]) := by decide +kernel
example : OThr.run thrStr (· == 1) ⟨some [.obj "a", .obj "b"], 2, 2, 2, 0⟩ 0 [.popBack, .emplaceBack "c", .resize 1 ""]
    = .ok (⟨some [.obj "a", .obj "b"], 1, 2, 3, 0⟩, 2, [.ret (.val "b"), .thrown, .ret .done]) := by decide +kernel
example {v' : OVec String} {m rs} (h : OThr.run thrStr (· == 1) ⟨some [.obj "a", .obj "b"], 2, 2, 2, 0⟩ 0 [.popBack, .emplaceBack "c", .resize 1 ""] = .ok (v', m, rs)) :
    (clear v').made = (clear v').released + 3 :=
  (C115_objects_partial thrStr (· == 1) (.inl (by decide)) ["a", "b"] 0 _ (by decide +kernel) h).1 rfl
example := C115_push_false thrVal rfl rfl [5, 6] 7 (by decide) (· == 3) 3 rfl
example := C115_removed_false thrStr rfl (.inl (by decide)) ["a"] "c" "b" (by decide) (· == 4) 3 rfl rfl
example : ∃ v v', ofList thrVal [5, 6] = .ok v ∧ OThr.run thrVal (· == 2) v 0 [.insert 1 [7, 8]] = .ok (v', 3, [.thrown]) ∧
    SeenElems thrVal v' [5, 6, 0, 0] := C115_insert_false thrVal rfl rfl [5, 6] [7, 8] 1 (by decide) (by decide)
example : ∃ v v', ofList thrStr ["a", "b", "c"] = .ok v ∧ OThr.run thrStr (· == 1) v 0 [.erase 0 1] = .ok (v', 2, [.thrown]) ∧
    SeenElems thrStr v' ["b", "b", "c"] := C115_erase_false thrStr rfl (.inl (by decide)) ["a", "b", "c"] 0 1 (by decide) (by decide)
example := C115_pop_false thrStr rfl (.inl (by decide)) ["a"] "b" (· == 0) 0 rfl

end Eni.Props
