import Verif.Proofs.HashThrow
/-!
# C116: entries that refuse to be made

An insertion whose entry cannot be made lets the exception of the key's or value's constructor out; the caller catches it and goes on using the table.
`FOp` pairs an operation with the statement whether making an entry throws, should the operation need one. `faultRuns` (Spec/HashThrow) is the finite map: a
failed insertion changes nothing.
-/
namespace Eni.Props
open Spec HThr
variable {K V : Type} [DecidableEq K]

/-- C116, what holds: as long as at most two insertions fail after something has been removed (or at most an eighth of the size given to the constructor),
every history reports what the finite map says and ends with its bindings. However many insertions fail before the first removal does not matter. The
destructor releases every entry; one block of memory per failure is lost. Missing: see the theorems `_false`. -/
theorem C116_few_partial (hash : K → UInt32) (dflt : V) (n : Nat) (hn : n ≤ 1431524664) (xs : List (FOp K V)) (hp : FaultPres dflt [] xs)
    (hw : ∀ x ∈ xs, Wide (lateFaults (faultRuns dflt [] xs).2) x.1)
    (hf : (lateFaults (faultRuns dflt [] xs).2 ≤ 2 ∧ (n = 0 ∨ 3 ≤ n)) ∨ 8 * lateFaults (faultRuns dflt [] xs).2 ≤ n) :
    ∃ s, run hash dflt ⟨Heap.empty, Table.new n, 0⟩ xs = .ok (s, (faultRuns dflt [] xs).2) ∧
      (∀ k, HashTable.lookup hash s.heap s.tab k = .ok ((faultRuns dflt [] xs).1.lookup k)) ∧ s.tab.ne = (faultRuns dflt [] xs).1.length ∧
      s.lost = faults (faultRuns dflt [] xs).2 ∧ ∃ h, HashTable.destroy s.heap s.tab = .ok h ∧ ∀ p, h.cells p = none := by
  obtain ⟨R, D, hz⟩ := start_debt (K := K) (V := V) (hash := hash) hn hf
  obtain ⟨h', t', d', e', h1, R', S, _, _, _, _, _⟩ := fault_run (hash := hash) (dflt := dflt) xs _ _ _ 0 false 0 R HashTable.empty_fresh D (by simp) hp hw (fun _ => hz)
    (by simp [lateFrom])
  refine ⟨_, h1, fun k => lookup_hat R' k, R'.ne_eq, by simp, ?_⟩
  obtain ⟨h2, t2, e2, R2, _, S2⟩ := HashTable.clear_sim R' S.fresh
  have e3 : HashTable.destroy h' t' = .ok h2 := by
    have : HashTable.destroy h' (Table.hat t') = .ok h2 := by simp [HashTable.destroy, e2]
    rw [← this]
    unfold HashTable.destroy HashTable.clear
    have e4 : (Table.hat t').ne = t'.ne := rfl
    have e5 : (Table.hat t').entries = t'.entries := rfl
    rw [e4, e5]
    split
    · rfl
    · rfl
  refine ⟨h2, e3, fun p => Decidable.byContradiction fun hp => ?_⟩
  have S' : HStep h' t' h2 t2 := ⟨S2.1, S2.2, S2.3, S2.4, S2.5⟩
  rcases (S.trans S').exact p hp with h3 | ⟨h3, _⟩
  · have : t2.entries = [] := by
      have := R2.abs.length_eq
      simpa using this
    rw [this] at h3; simp at h3
  · simp [Heap.empty] at h3

/-- the history of the next theorem: three failures on one and the same removed binding, then twelve bindings kept in the table, four of them replaced -/
def hangOps : List (FOp Nat Nat) :=
  [(.insert 0, false), (.erase 0, false), (.insert 0, true), (.insert 0, true), (.insert 0, true)] ++
  (List.range 12).map (fun i => (.insert (i + 1), false)) ++
  ((List.range 4).map fun i => [(.erase (i + 1), false), (.insert (i + 13), false)]).flatten

/-- C116 fails with a third failure: on a table without initial size, three failed insertions after a removal and twenty ordinary operations later every
search for a key that is not in the table runs for ever. -/
theorem C116_three_false : ∃ xs : List (FOp Nat Nat), FaultPres 0 [] xs ∧ faults (faultRuns 0 [] xs).2 = 3 ∧ (faultRuns 0 [] xs).1.length = 12 ∧
    ∃ s, run UInt32.ofNat 0 ⟨Heap.empty, Table.new 0, 0⟩ xs = .ok (s, (faultRuns 0 [] xs).2) ∧
      (faultRuns 0 [] xs).1.lookup 17 = none ∧ HashTable.lookup UInt32.ofNat s.heap s.tab 17 = .diverge ∧
      HashTable.insert UInt32.ofNat 0 s.heap s.tab 17 = .diverge := by
  have h1 : (run UInt32.ofNat 0 ⟨Heap.empty, Table.new 0, 0⟩ hangOps >>= fun r => Res.ok r.2) = .ok (faultRuns 0 [] hangOps).2 := by decide +kernel
  have h2 : (run UInt32.ofNat 0 ⟨Heap.empty, Table.new 0, 0⟩ hangOps >>= fun r => Res.ok (HashTable.lookup UInt32.ofNat r.1.heap r.1.tab 17)) = .ok .diverge := by
    decide +kernel
  have h3 : (run UInt32.ofNat 0 ⟨Heap.empty, Table.new 0, 0⟩ hangOps >>= fun r =>
      Res.ok (HashTable.insert UInt32.ofNat 0 r.1.heap r.1.tab 17 >>= fun _ => Res.ok ())) = .ok .diverge := by
    decide +kernel
  refine ⟨hangOps, ?_, by decide +kernel, by decide +kernel, ?_⟩
  · simp [hangOps, FaultPres, faultStep, tstep, TPre, FMap.lookup, FMap.erase, List.range, List.range.loop]
  · cases hr : run UInt32.ofNat 0 ⟨Heap.empty, Table.new 0, 0⟩ hangOps with
    | ok r =>
      rw [hr] at h1 h2 h3
      simp only [Res.ok_bind, Res.ok.injEq] at h1 h2 h3
      refine ⟨r.1, by rw [← h1], by decide +kernel, h2, ?_⟩
      cases hi : HashTable.insert UInt32.ofNat 0 r.1.heap r.1.tab 17 with
      | diverge => rfl
      | _ => rw [hi] at h3; simp at h3
    | _ => rw [hr] at h1; simp at h1

/-- C116 fails for `count`: whatever was done before without removing anything, after a failed insertion of an absent key `count` of that key dereferences a
null pointer. -/
theorem C116_count_false (hash : K → UInt32) (dflt : V) (n : Nat) (hn : n ≤ 1431524664) (xs : List (FOp K V)) (hp : FaultPres dflt [] xs)
    (hr : ∀ r ∈ (faultRuns dflt [] xs).2, isRemoval r = false) (k : K) (hk : (faultRuns dflt [] xs).1.lookup k = none) :
    ∃ s s', run hash dflt ⟨Heap.empty, Table.new n, 0⟩ xs = .ok (s, (faultRuns dflt [] xs).2) ∧ step hash dflt s (.insert k, true) = .ok (s', .threw) ∧
      (∀ k', HashTable.lookup hash s'.heap s'.tab k' = .ok ((faultRuns dflt [] xs).1.lookup k')) ∧
      HashTable.count hash s'.heap.keyOf s'.tab k = .ub .nullDeref := by
  have h0 : lateFaults (faultRuns dflt [] xs).2 = 0 := by
    have : ∀ rs : List (TRep V), (∀ r ∈ rs, isRemoval r = false) → lateFaults rs = 0 := by
      intro rs
      induction rs with
      | nil => intro _; rfl
      | cons r rs ih =>
        intro h
        unfold lateFaults
        rw [List.dropWhile_cons_of_pos (by simp [h r List.mem_cons_self])]
        exact ih fun r hr => h r (List.mem_cons_of_mem _ hr)
    exact this _ hr
  obtain ⟨R, D, hz⟩ := start_debt (K := K) (V := V) (f := 0) (hash := hash) hn (by omega)
  have hw : ∀ x ∈ xs, Wide 0 x.1 := by
    have : ∀ (xs : List (FOp K V)) (m : FMap K V), FaultPres dflt m xs → ∀ x ∈ xs, Wide 0 x.1 := by
      intro xs
      induction xs with
      | nil => intro m _ x hx; simp at hx
      | cons y ys ih =>
        intro m hp x hx
        rcases List.mem_cons.mp hx with rfl | hx
        · rcases x with ⟨op, b⟩
          cases op with
          | rehashN q => have := hp.1; simp only [TPre] at this; simp only [Wide]; omega
          | _ => simp [Wide]
        · exact ih _ hp.2 x hx
    exact this xs [] hp
  obtain ⟨h', t', d', e', h1, R', S, _, D', hd', he', hz'⟩ := fault_run (hash := hash) (dflt := dflt) xs _ _ _ 0 false 0 R HashTable.empty_fresh D (by simp) hp hw
    (fun _ => hz) (by simp [lateFrom, h0])
  have hz2 : t'.tombs = 0 := by
    apply hz'
    rw [he', Bool.false_or, List.any_eq_false]
    intro r hr'; simp [hr r hr']
  obtain ⟨t2, e2, e3⟩ := count_fail R' D' hz2 hk
  rcases insertFail_debt R' D' hd' k with ⟨q, v, _, hl⟩ | ⟨_, t3, e4, R3, _⟩
  · rw [hk] at hl; simp at hl
  · rw [e2] at e4
    obtain rfl : t2 = t3 := by simpa using e4
    refine ⟨_, ⟨h', t2, 0 + faults (faultRuns dflt [] xs).2 + 1⟩, h1, ?_, fun k' => lookup_hat R3 k', e3⟩
    simp [step, keyIns, e2]

/-- C116, copy construction: if making a copy of some entry throws, the source keeps its bindings; the entries copied until then are never released. -/
theorem C116_copy (hash : K → UInt32) (dflt : V) (n : Nat) (hn : n ≤ 1431524664) (ops : List (TOp K V)) (hp : TPres dflt [] ops) (j : Nat)
    (hj : j < (truns dflt [] ops).1.length) :
    ∃ h t h' , HashTable.runOps hash dflt Heap.empty (Table.new n) ops = .ok (h, t, (truns dflt [] ops).2) ∧ newCopyFail h t j = .ok h' ∧
      (∀ k, HashTable.lookup hash h' t k = .ok ((truns dflt [] ops).1.lookup k)) ∧
      ∃ lost : List Nat, lost.length = j ∧ lost.Nodup ∧ ∃ h'', HashTable.destroy h' t = .ok h'' ∧ ∀ p, h''.cells p ≠ none ↔ p ∈ lost := by
  obtain ⟨h, t, h1, R, F, _, S, _⟩ := HashTable.runOps_sim (hash := hash) (dflt := dflt) ops _ _ _ (HashTable.new_rel hash hn) HashTable.empty_fresh (by simp) hp
  obtain ⟨h', e1, R', F', lost, l1, l2, l3, l4⟩ := newCopyFail_spec R F hj
  refine ⟨h, t, h', h1, e1, fun k => HashTable.lookup_sim R' k, lost, l1, l2, ?_⟩
  obtain ⟨h2, t2, e2, R2, _, S2⟩ := HashTable.clear_sim R' F'
  have hold : ∀ p, h.cells p ≠ none → p ∈ t.entries := by
    intro p hp
    rcases S.exact p hp with h3 | ⟨h3, _⟩
    · exact h3
    · simp [Heap.empty] at h3
  have ht2 : t2.entries = [] := by
    have := R2.abs.length_eq
    simpa using this
  refine ⟨h2, by simp [HashTable.destroy, e2], fun p => ⟨fun hp => ?_, fun hp => ?_⟩⟩
  · rcases S2.exact p hp with h3 | ⟨h3, h4⟩
    · rw [ht2] at h3; simp at h3
    · have h5 : h'.cells p ≠ none := by rw [← S2.frame p h3 h4]; exact hp
      rcases l4 p h5 with h6 | h6
      · exact absurd (hold p h6) h4
      · exact h6
  · obtain ⟨⟨c, hc⟩, h4⟩ := l3 p hp
    have hpe : p ∉ t.entries := by
      intro hpe
      obtain ⟨c', hc'⟩ := R.live hpe
      rw [h4] at hc'; simp at hc'
    have hlt : p < h'.next := by
      rcases Nat.lt_or_ge p h'.next with h5 | h5
      · exact h5
      · rw [F' p h5] at hc; simp at hc
    rw [S2.frame p hlt hpe, hc]; simp

/-- C116 fails for copy assignment: if making the copy of any entry throws, the destination is left with a pointer to a block without object, and its
destructor, which runs in any case, is undefined. The source is not harmed until then. -/
theorem C116_assign_false (hash : K → UInt32) (dflt : V) (n : Nat) (hn : n ≤ 1431524664) (ops : List (TOp K V)) (hp : TPres dflt [] ops) (dst : Table Nat) (j : Nat)
    (hj : j < (truns dflt [] ops).1.length) :
    ∃ h t h' t', HashTable.runOps hash dflt Heap.empty (Table.new n) ops = .ok (h, t, (truns dflt [] ops).2) ∧ assignFail h dst t j = .ok (h', t') ∧
      (∀ k, HashTable.lookup hash h' t k = .ok ((truns dflt [] ops).1.lookup k)) ∧ HashTable.destroy h' t' = .ub .doubleFree := by
  obtain ⟨h, t, h1, R, F, _, S, _⟩ := HashTable.runOps_sim (hash := hash) (dflt := dflt) ops _ _ _ (HashTable.new_rel hash hn) HashTable.empty_fresh (by simp) hp
  obtain ⟨h', t', e1, _, e2, R'⟩ := assignFail_ub R F dst hj
  exact ⟨h, t, h', t', h1, e1, fun k => HashTable.lookup_sim R' k, e2⟩

/-- the hypotheses of `C116_few_partial` can be met: failures before any removal, and two after one -/
example : FaultPres (V := Nat) (K := Nat) 0 [] [(.insert 5, true), (.assign 5 7, true), (.insert 5, false), (.insert 5, true), (.erase 5, false), (.insert 5, true), (.assign 6 1, true), (.insert 7, false)] ∧
    lateFaults (faultRuns (V := Nat) (K := Nat) 0 [] [(.insert 5, true), (.assign 5 7, true), (.insert 5, false), (.insert 5, true), (.erase 5, false), (.insert 5, true), (.assign 6 1, true), (.insert 7, false)]).2 = 2 ∧
    faults (faultRuns (V := Nat) (K := Nat) 0 [] [(.insert 5, true), (.assign 5 7, true), (.insert 5, false), (.insert 5, true), (.erase 5, false), (.insert 5, true), (.assign 6 1, true), (.insert 7, false)]).2 = 4 := by
  refine ⟨?_, by decide, by decide⟩
  simp [FaultPres, faultStep, tstep, TPre, FMap.lookup, FMap.erase]

/-- the hypotheses of `C116_count_false` can be met -/
example : (∀ r ∈ (faultRuns (V := Nat) (K := Nat) 0 [] [(.insert 5, false), (.insert 6, true), (.erase 7, false)]).2, isRemoval r = false) ∧
    (faultRuns (V := Nat) (K := Nat) 0 [] [(.insert 5, false), (.insert 6, true), (.erase 7, false)]).1.lookup 6 = none := by decide

/-- the hypotheses of `C116_copy` and `C116_assign_false` can be met -/
example : TPres (V := Nat) (K := Nat) 0 [] [.insert 5, .assign 6 1] ∧ 1 < (truns (V := Nat) (K := Nat) 0 [] [.insert 5, .assign 6 1]).1.length := by
  simp [TPres, TPre, truns, tstep, FMap.lookup, FMap.set, FMap.erase]

end Eni.Props
