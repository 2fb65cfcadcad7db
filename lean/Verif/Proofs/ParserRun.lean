import Verif.Proofs.ParserMem
import Verif.Proofs.JsonCallbacks
/-!
# The callbacks in memory follow a machine on trees
-/
namespace Eni.Owner
open Spec
open Json (Ev)

/-- stack (top first), root, number of objects allocated and lost -/
structure Abs where
  stack : List (Tree × Bytes)
  root : Tree
  a : Nat
  k : Nat

namespace Abs

def cells (s : Abs) : Nat := Tree.cellsAll (s.stack.map Prod.fst) + s.root.cells

def keptAll : List (Tree × Bytes) → Nat
  | [] => 0
  | (x, _) :: s => x.kept + keptAll s

def attach (s : Abs) (x : Tree) : Option Abs :=
  match s.stack with
  | [] => some { s with root := x, a := s.a + x.cells, k := s.k + s.root.cells }
  | (.obj ks us, key) :: rest =>
    some { s with
      stack := (.obj (putMember (ks, us) (key, x)).1 (putMember (ks, us) (key, x)).2, key) :: rest
      a := s.a + x.cells
      k := s.k + oldMember ks us key }
  | (.arr us, key) :: rest => some { s with stack := (.arr (us ++ [x]), key) :: rest, a := s.a + x.cells }
  | _ => none

/-- `set_parent` -/
def deliver (s : Abs) (x : Tree) : Option Abs :=
  match s.attach x with
  | some s => some { s with a := s.a + x.cells, k := s.k + x.kept }
  | none => none

def begin_ (grow : Nat → Bool) (s : Abs) (x : Tree) : Abs :=
  if grow s.stack.length then
    { s with stack := (x, []) :: s.stack, a := s.a + 2 * x.cells + Tree.cellsAll (s.stack.map Prod.fst), k := s.k + keptAll s.stack }
  else { s with stack := (x, []) :: s.stack, a := s.a + 2 * x.cells }

def end_ (s : Abs) : Option Abs :=
  match s.stack with
  | [] => none
  | (x, _) :: rest =>
    match deliver { s with stack := rest, a := s.a + x.cells, k := s.k + x.kept } x with
    | some s => some { s with k := s.k + x.kept }
    | none => none

def step (grow : Nat → Bool) (s : Abs) : Ev → Option Abs
  | .boolean b => deliver s (.bool b)
  | .number t => deliver { s with a := s.a + 1 } (.int (Value.s256OfText t))
  | .string x false => deliver { s with a := s.a + 1 } (.str x)
  | .string x true =>
    match s.stack with
    | [] => none
    | (t, _) :: rest => some { s with stack := (t, x) :: rest }
  | .beginArray => some (begin_ grow s (.arr []))
  | .beginObject => some (begin_ grow s (.obj [] []))
  | .endArray => end_ s
  | .endObject => end_ s

def run (grow : Nat → Bool) (s : Abs) : List Ev → Option Abs
  | [] => some s
  | e :: es =>
    match step grow s e with
    | some s => run grow s es
    | none => none

theorem run_append (grow : Nat → Bool) (s : Abs) (es fs : List Ev) : run grow s (es ++ fs) = (run grow s es).bind fun s => run grow s fs := by
  induction es generalizing s with
  | nil => rfl
  | cons e es ih =>
    simp only [List.cons_append, run]
    cases step grow s e with
    | none => rfl
    | some s => exact ih s

end Abs

/-- one element of the stack: variable, tree, key -/
abbrev Item := Nat × Tree × Bytes

def vars (M : List Item) : List (Nat × Tree) := M.map fun m => (m.1, m.2.1)

def Sim (h : Heap) (cb : Cb) (s : Abs) : Prop :=
  ∃ M : List Item, cb.stack = M.map (fun m => (m.1, m.2.2)) ∧ s.stack = M.map (fun m => m.2) ∧ St h cb.n ((cb.root, s.root) :: vars M) s.a s.k

theorem St.cast {h n L a k a' k'} (s : St h n L a k) (ha : a = a') (hk : k = k') : St h n L a' k' := ha ▸ hk ▸ s

/-- `set_parent` with further variables `F` -/
theorem setParent_sim {h : Heap} {n : Nat} {root : Nat} {M : List Item} {s s' : Abs} {F : List (Nat × Tree)} {v : Nat} {x : Tree}
    (hs : s.stack = M.map (fun m => m.2)) (st : St h n ((root, s.root) :: (vars M ++ F)) s.a s.k) (hv : (v, x) ∈ F) (hd : s.deliver x = some s') :
    ∃ h' M', setParentM h ⟨n, M.map (fun m => (m.1, m.2.2)), root⟩ v = .ok (h', ⟨n + 1, M'.map (fun m => (m.1, m.2.2)), root⟩) ∧
      s'.stack = M'.map (fun m => m.2) ∧ M'.map (fun m => (m.1, m.2.2)) = M.map (fun m => (m.1, m.2.2)) ∧
      St h' (n + 1) ((root, s'.root) :: (vars M' ++ F)) s'.a s'.k := by
  obtain ⟨h1, e1, st1⟩ := st.copy (i := v) (x := x) (by simp [hv])
  unfold Abs.deliver at hd
  split at hd
  case h_2 => cases hd
  rename_i s1 ha
  cases hd
  cases M with
  | nil =>
    simp only [List.map_nil] at hs
    simp only [Abs.attach, hs, Option.some.injEq] at ha
    subst ha
    simp only [vars, List.map_nil, List.nil_append] at st st1 ⊢
    obtain ⟨h2, e2, st2⟩ := (st1.perm (List.Perm.swap _ _ _)).assign (j := n) (x := x) (by simp)
    obtain ⟨h3, e3, st3⟩ := (st2.perm (List.Perm.swap _ _ _)).destroy
    refine ⟨h3, [], ?_, by simpa using hs, rfl, ?_⟩
    · simp [setParentM, e1, Owner.attach, e2, e3]
    · simpa using st3.cast (by omega) (by simp only [Tree.kept])
  | cons m M =>
    obtain ⟨i, y, key⟩ := m
    simp only [List.map_cons] at hs
    simp only [Abs.attach, hs] at ha
    obtain ⟨w, l, hr, hw⟩ := st1.type (i := i) (x := y) (by simp [vars])
    simp only [vars, List.map_cons, List.cons_append] at st1 ⊢
    have hperm : ∀ (y : Tree) (r : Tree), ((n, x) :: (root, r) :: (i, y) :: (M.map (fun m => (m.1, m.2.1)) ++ F)).Perm
        ((i, y) :: (n, x) :: (root, r) :: (M.map (fun m => (m.1, m.2.1)) ++ F)) := by
      intro y r
      exact ((List.Perm.swap (i, y) (root, r) _).cons _).trans (List.Perm.swap _ _ _)
    cases y with
    | undef => simp at ha
    | bool b => simp at ha
    | int z => simp at ha
    | str z => simp at ha
    | arr us =>
      simp only [Option.some.injEq] at ha
      subst ha
      have hty : w.ty = .arr := by cases hw; rfl
      obtain ⟨h2, e2, st2⟩ := (st1.perm (hperm _ _)).push (j := n) (x := x) (by simp)
      obtain ⟨h3, e3, st3⟩ := (st2.perm (hperm _ _).symm).destroy
      refine ⟨h3, (i, .arr (us ++ [x]), key) :: M, ?_, rfl, rfl, ?_⟩
      · simp [setParentM, e1, Owner.attach, hr, hty, e2, e3]
      · exact st3.cast rfl (by simp only [Tree.kept])
    | obj ks us =>
      simp only [Option.some.injEq] at ha
      subst ha
      have hty : w.ty = .obj := by cases hw; rfl
      obtain ⟨h2, e2, st2⟩ := (st1.perm (hperm _ _)).member (j := n) (x := x) key (by simp)
      obtain ⟨h3, e3, st3⟩ := (st2.perm (hperm _ _).symm).destroy
      refine ⟨h3, (i, .obj (putMember (ks, us) (key, x)).1 (putMember (ks, us) (key, x)).2, key) :: M, ?_, rfl, rfl, ?_⟩
      · simp [setParentM, e1, Owner.attach, hr, hty, e2, e3]
      · exact st3.cast rfl (by simp only [Tree.kept])

theorem kept_light {x : Tree} (h : x = .bool true ∨ x = .bool false ∨ ∃ s, x = .str s) : x.kept = 0 := by
  rcases h with rfl | rfl | ⟨s, rfl⟩ <;> rfl

/-- variables to the front -/
theorem perm_front {root : Nat × Tree} {V : List (Nat × Tree)} {p : Nat × Tree} : (root :: (V ++ [p])).Perm (p :: root :: V) := by
  have : (V ++ [p]).Perm (p :: V) := List.perm_append_singleton p V
  exact (this.cons root).trans (List.Perm.swap _ _ _)

theorem scalar_sim {h : Heap} {cb : Cb} {s s' : Abs} (S : Sim h cb s) {mk : Op} {x : Tree} {c : Nat}
    (hmk : ∀ {h n L a k}, St h n L a k → ∃ h', exec h [mk] = .ok h' ∧ St h' (n + 1) ((n, x) :: L) (a + c) k) (hk : x.kept = 0)
    (hd : Abs.deliver { s with a := s.a + c } x = some s') : ∃ h' cb', scalar h cb mk = .ok (h', cb') ∧ Sim h' cb' s' := by
  obtain ⟨M, h1, h2, st⟩ := S
  obtain ⟨ha, ea, sa⟩ := hmk st
  obtain ⟨hb, M', eb, b1, b2, sb⟩ := setParent_sim (s := { s with a := s.a + c }) (F := [(cb.n, x)]) (v := cb.n) (x := x) h2 (sa.perm perm_front.symm) (by simp) hd
  obtain ⟨hc, ec, sc⟩ := (sb.perm perm_front).destroy
  refine ⟨hc, ⟨cb.n + 2, M'.map (fun m => (m.1, m.2.2)), cb.root⟩, ?_, M', rfl, b1, ?_⟩
  · simp [scalar, ea, h1, eb, ec]
  · have hk' : x.cells - x.released = 0 := hk
    exact sc.cast rfl (by omega)

theorem number_sim {h : Heap} {cb : Cb} {s s' : Abs} (S : Sim h cb s) {grow : Nat → Bool} {t : Bytes}
    (hd : Abs.deliver { s with a := s.a + 1 } (.int (Value.s256OfText t)) = some s') : ∃ h' cb', cbStepM grow h cb (.number t) = .ok (h', cb') ∧ Sim h' cb' s' := by
  obtain ⟨M, h1, h2, st⟩ := S
  obtain ⟨ha, ea, sa⟩ := st.undef
  obtain ⟨ha', ea', sa'⟩ := sa.delegate (Value.s256OfText t)
  obtain ⟨hb, M', eb, b1, b2, sb⟩ := setParent_sim (s := { s with a := s.a + 1 }) (F := [(cb.n, .int (Value.s256OfText t))]) (v := cb.n) h2
    (sa'.perm perm_front.symm) (by simp) hd
  obtain ⟨hc, ec, sc⟩ := (sb.perm perm_front).dropInt
  refine ⟨hc, ⟨cb.n + 2, M'.map (fun m => (m.1, m.2.2)), cb.root⟩, ?_, M', rfl, b1, sc⟩
  simp [cbStepM, exec_cons ea, ea', h1, eb, ec]

theorem end_sim {h : Heap} {cb : Cb} {s s' : Abs} (S : Sim h cb s) (hd : s.end_ = some s') : ∃ h' cb', end_ h cb = .ok (h', cb') ∧ Sim h' cb' s' := by
  obtain ⟨M, h1, h2, st⟩ := S
  cases M with
  | nil => simp [Abs.end_, h2] at hd
  | cons m M =>
    obtain ⟨i, x, key⟩ := m
    simp only [List.map_cons] at h1 h2
    simp only [Abs.end_, h2] at hd
    simp only [vars, List.map_cons] at st
    obtain ⟨ha, ea, sa⟩ := st.copy (i := i) (x := x) (by simp)
    obtain ⟨ha', ea', sa'⟩ := (sa.perm (((List.Perm.swap (i, x) (cb.root, s.root) _).cons _).trans (List.Perm.swap _ _ _))).destroy
    split at hd
    case h_2 => cases hd
    rename_i s1 e1
    cases hd
    obtain ⟨hb, M', eb, b1, b2, sb⟩ := setParent_sim (s := { s with stack := M.map (fun m => m.2), a := s.a + x.cells, k := s.k + x.kept })
      (M := M) (F := [(cb.n, x)]) (v := cb.n) (x := x) rfl (sa'.perm perm_front.symm) (by simp) e1
    obtain ⟨hc, ec, sc⟩ := (sb.perm perm_front).destroy
    refine ⟨hc, ⟨cb.n + 2, M'.map (fun m => (m.1, m.2.2)), cb.root⟩, ?_, M', rfl, b1, sc⟩
    simp [end_, h1, exec_cons ea, ea', eb, ec]

theorem destroyAll_sim : ∀ (M : List Item) {h : Heap} {n : Nat} {F : List (Nat × Tree)} {a k : Nat}, St h n (vars M ++ F) a k →
    ∃ h', destroyAll h (M.map (fun m => (m.1, m.2.2))) = .ok h' ∧ St h' n F a (k + Abs.keptAll (M.map fun m => m.2)) := by
  intro M
  induction M with
  | nil => intro h n F a k st; exact ⟨h, rfl, st⟩
  | cons m M ih =>
    obtain ⟨i, x, key⟩ := m
    intro h n F a k st
    obtain ⟨h1, e1, s1⟩ := ih (F := (i, x) :: F) (st.perm (by simpa [vars] using List.perm_middle.symm))
    obtain ⟨h2, e2, s2⟩ := s1.destroy
    exact ⟨h2, by simp [destroyAll, e1, e2], s2.cast rfl (by simp only [List.map_cons, Abs.keptAll, Tree.kept]; omega)⟩

/-- the items of the new block -/
def renumber (n : Nat) : List Item → List Item
  | [] => []
  | (_, x, key) :: M => (n + M.length, x, key) :: renumber n M

theorem copyAll_sim : ∀ (M : List Item) {h : Heap} {n m : Nat} {L : List (Nat × Tree)} {a k : Nat}, St h n L a k → (∀ p ∈ vars M, p ∈ L) →
    ∃ h', copyAll h n (M.map (fun m => (m.1, m.2.2))) = .ok (h', (renumber n M).map (fun m => (m.1, m.2.2))) ∧
      St h' (n + M.length) (vars (renumber n M) ++ L) (a + Tree.cellsAll ((M.map fun m => m.2).map Prod.fst)) k := by
  intro M
  induction M with
  | nil => intro h n m L a k st _; exact ⟨h, rfl, st⟩
  | cons q M ih =>
    obtain ⟨i, x, key⟩ := q
    intro h n m L a k st hL
    obtain ⟨h1, e1, s1⟩ := ih (m := m) st (fun p hp => hL p (by simp [vars] at hp ⊢; exact .inr hp))
    obtain ⟨h2, e2, s2⟩ := s1.copy (i := i) (x := x) (by simp [hL (i, x) (by simp [vars])])
    refine ⟨h2, by simp [copyAll, e1, e2, renumber], ?_⟩
    exact s2.cast (by simp only [List.map_cons, Tree.cellsAll]; omega) rfl

theorem renumber_snd (n : Nat) (M : List Item) : (renumber n M).map (fun m => m.2) = M.map (fun m => m.2) := by
  induction M with
  | nil => rfl
  | cons m M ih => obtain ⟨i, x, key⟩ := m; simp [renumber, ih]

theorem begin_sim {h : Heap} {cb : Cb} {s : Abs} (S : Sim h cb s) {grow : Nat → Bool} {mk : Op} {x : Tree}
    (hmk : ∀ {h n L a k}, St h n L a k → ∃ h', exec h [mk] = .ok h' ∧ St h' (n + 1) ((n, x) :: L) (a + x.cells) k) (hk : x.kept = 0) :
    ∃ h' cb', begin_ grow h cb mk = .ok (h', cb') ∧ Sim h' cb' (s.begin_ grow x) := by
  obtain ⟨M, h1, h2, st⟩ := S
  obtain ⟨ha, ea, sa⟩ := hmk st
  obtain ⟨hb, eb, sb⟩ := sa.copy (i := cb.n) (x := x) (by simp)
  obtain ⟨hc, ec, sc⟩ := sb.move
  obtain ⟨hd, ed, sd⟩ := sc.move
  have e4 : exec h [mk, .copy [.elem cb.n], .move [.elem (cb.n + 1)], .move [.elem (cb.n + 2)]] = .ok hd := by
    rw [exec_cons ea, exec_cons eb, exec_cons ec, ed]
  have hk' : x.cells - x.released = 0 := hk
  -- what happens at the end
  have tail : ∀ {h : Heap} {N : Nat} {L : List (Nat × Tree)} {a k : Nat}, St h N ((cb.n + 2, .undef) :: (cb.n + 1, .undef) :: (cb.n, x) :: L) a k →
      ∃ h', exec h [.destroy (cb.n + 2), .destroy (cb.n + 1), .destroy cb.n] = .ok h' ∧ St h' N L a k := by
    intro h N L a k st
    obtain ⟨h5, e5, s5⟩ := st.destroy
    obtain ⟨h6, e6, s6⟩ := s5.destroy
    obtain ⟨h7, e7, s7⟩ := s6.destroy
    exact ⟨h7, by rw [exec_cons e5, exec_cons e6, e7], s7.cast rfl (by simp only [Tree.cells, Tree.released]; omega)⟩
  have hslen : s.stack.length = M.length := by rw [h2, List.length_map]
  by_cases hg : grow M.length
  · obtain ⟨h5, e5, s5⟩ := copyAll_sim M (m := 0) sd (fun p hp => by simp [hp])
    have hp1 : (vars (renumber (cb.n + 4) M) ++ (cb.n + 3, x) :: (cb.n + 2, .undef) :: (cb.n + 1, .undef) :: (cb.n, x) :: (cb.root, s.root) :: vars M).Perm
        (vars M ++ ((cb.n + 2, .undef) :: (cb.n + 1, .undef) :: (cb.n, x) :: (cb.root, s.root) :: (cb.n + 3, x) :: vars (renumber (cb.n + 4) M))) := by
      classical
      refine List.perm_iff_count.mpr fun q => ?_
      simp only [List.count_append, List.count_cons]
      omega
    obtain ⟨h6, e6, s6⟩ := destroyAll_sim M (s5.perm hp1)
    obtain ⟨h7, e7, s7⟩ := tail s6
    refine ⟨h7, ⟨cb.n + 4 + M.length, ((cb.n + 3, x, []) :: renumber (cb.n + 4) M).map (fun m => (m.1, m.2.2)), cb.root⟩, ?_,
      (cb.n + 3, x, []) :: renumber (cb.n + 4) M, rfl, ?_, ?_⟩
    · simp [begin_, e4, hg, h1, e5, e6, e7]
    · simp [Abs.begin_, hg, renumber_snd, h2]
    · have : St h7 (cb.n + 4 + M.length) ((cb.root, s.root) :: vars ((cb.n + 3, x, []) :: renumber (cb.n + 4) M))
          (s.a + x.cells + x.cells + Tree.cellsAll ((M.map fun m => m.2).map Prod.fst)) (s.k + Abs.keptAll (M.map fun m => m.2)) := s7
      rw [Abs.begin_, hslen, if_pos hg]
      simp only [h2]
      exact this.cast (by omega) rfl
  · obtain ⟨h7, e7, s7⟩ := tail (L := (cb.root, s.root) :: (cb.n + 3, x) :: vars M) (sd.perm (by
          classical
          refine List.perm_iff_count.mpr fun q => ?_
          simp only [List.count_cons, show cb.n + 1 + 1 + 1 = cb.n + 3 from rfl, show cb.n + 1 + 1 = cb.n + 2 from rfl]
          omega))
    refine ⟨h7, ⟨cb.n + 4, ((cb.n + 3, x, []) :: M).map (fun m => (m.1, m.2.2)), cb.root⟩, ?_, (cb.n + 3, x, []) :: M, rfl, ?_, ?_⟩
    · simp [begin_, e4, hg, h1, e7]
    · simp [Abs.begin_, hg, h2]
    · have : St h7 (cb.n + 4) ((cb.root, s.root) :: vars ((cb.n + 3, x, []) :: M)) (s.a + x.cells + x.cells) s.k := s7
      rw [Abs.begin_, hslen, if_neg hg]
      exact this.cast (by simp only []; omega) rfl

theorem step_sim' {h : Heap} {cb : Cb} {s s' : Abs} (S : Sim h cb s) {grow : Nat → Bool} {e : Ev} (hd : s.step grow e = some s') :
    ∃ h' cb', cbStepM grow h cb e = .ok (h', cb') ∧ Sim h' cb' s' := by
  cases e with
  | boolean b => exact scalar_sim S (c := 0) (fun st => st.bool b) rfl hd
  | number t => exact number_sim S hd
  | string x key =>
    cases key with
    | false => exact scalar_sim S (fun st => st.str x) rfl hd
    | true =>
      obtain ⟨M, h1, h2, st⟩ := S
      cases M with
      | nil => simp [Abs.step, h2] at hd
      | cons m M =>
        obtain ⟨i, y, key⟩ := m
        simp only [List.map_cons] at h1 h2
        simp only [Abs.step, h2, Option.some.injEq] at hd
        subst hd
        exact ⟨h, { cb with stack := (i, x) :: M.map (fun m => (m.1, m.2.2)) }, by simp [cbStepM, h1], (i, y, x) :: M, rfl, rfl, st⟩
  | beginArray =>
    simp only [Abs.step, Option.some.injEq] at hd
    subst hd
    exact begin_sim S (fun st => st.array) rfl
  | beginObject =>
    simp only [Abs.step, Option.some.injEq] at hd
    subst hd
    exact begin_sim S (fun st => st.object) rfl
  | endArray => exact end_sim S hd
  | endObject => exact end_sim S hd

theorem run_sim' {grow : Nat → Bool} : ∀ (es : List Ev) {h : Heap} {cb : Cb} {s s' : Abs}, Sim h cb s → s.run grow es = some s' →
    ∃ h' cb', cbRunM grow h cb es = .ok (h', cb') ∧ Sim h' cb' s' := by
  intro es
  induction es with
  | nil =>
    intro h cb s s' S hr
    cases hr
    exact ⟨h, cb, rfl, S⟩
  | cons e es ih =>
    intro h cb s s' S hr
    simp only [Abs.run] at hr
    split at hr
    case h_2 => cases hr
    rename_i s1 e1
    obtain ⟨h1, cb1, e1, S1⟩ := step_sim' S e1
    obtain ⟨h2, cb2, e2, S2⟩ := ih S1 hr
    exact ⟨h2, cb2, by simp [cbRunM, e1, e2], S2⟩

end Eni.Owner
