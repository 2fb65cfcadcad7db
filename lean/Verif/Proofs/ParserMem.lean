import Verif.Model.ParserMem
import Verif.Spec.ParserMem
import Verif.Proofs.OwnerCountRun
import Verif.Proofs.JsonParse
/-!
# The callbacks in memory
-/
namespace Eni.Owner
open Spec

theorem get_var (ts : List Tree) (i : Nat) : (Tree.arr ts).get [.elem i] = ts[i]? := by
  simp only [Tree.get, Tree.pos]
  by_cases h : i < ts.length
  · simp [h, Tree.kids]
  · simp [h]

theorem set_var {ts : List Tree} {i : Nat} (h : i < ts.length) (x : Tree) : (Tree.arr ts).set x [.elem i] = .arr (ts.set i x) := by
  simp [Tree.set, Tree.pos, h, Tree.kids, Tree.withKids]

/-- `L` lists the variables that are not undefined (and perhaps some that are). -/
def Vars (ts : List Tree) (L : List (Nat × Tree)) : Prop :=
  (L.map Prod.fst).Nodup ∧ (∀ p ∈ L, ts[p.1]? = some p.2) ∧ ∀ i x, ts[i]? = some x → i ∉ L.map Prod.fst → x = .undef

theorem Vars.perm {ts : List Tree} {L L' : List (Nat × Tree)} (v : Vars ts L) (hp : L.Perm L') : Vars ts L' := by
  obtain ⟨a, b, c⟩ := v
  have hm := hp.map Prod.fst
  exact ⟨hm.nodup_iff.mp a, fun p h => b p (hp.mem_iff.mpr h), fun i x h hn => c i x h (fun h' => hn (hm.mem_iff.mp h'))⟩

theorem Vars.lt {ts : List Tree} {L : List (Nat × Tree)} (v : Vars ts L) {p : Nat × Tree} (h : p ∈ L) : p.1 < ts.length :=
  (List.getElem?_eq_some_iff.mp (v.2.1 p h)).1

theorem Vars.new {ts : List Tree} {L : List (Nat × Tree)} (v : Vars ts L) (x : Tree) : Vars (ts ++ [x]) ((ts.length, x) :: L) := by
  obtain ⟨a, b, c⟩ := v
  refine ⟨?_, ?_, ?_⟩
  · simp only [List.map_cons, List.nodup_cons]
    refine ⟨?_, a⟩
    intro h
    obtain ⟨p, hp, e⟩ := List.mem_map.mp h
    have := Vars.lt ⟨a, b, c⟩ hp
    omega
  · intro p hp
    rcases List.mem_cons.mp hp with rfl | hp
    · simp
    · have := Vars.lt ⟨a, b, c⟩ hp
      rw [List.getElem?_append_left this]
      exact b p hp
  · intro i y hi hn
    simp only [List.map_cons, List.mem_cons, not_or] at hn
    have hlt := (List.getElem?_eq_some_iff.mp hi).1
    simp at hlt
    rw [List.getElem?_append_left (by omega)] at hi
    exact c i y hi hn.2

theorem Vars.set {ts : List Tree} {L : List (Nat × Tree)} {i : Nat} {y : Tree} (v : Vars ts ((i, y) :: L)) (x : Tree) :
    Vars (ts.set i x) ((i, x) :: L) := by
  have hi : i < ts.length := v.lt (p := (i, y)) (by simp)
  obtain ⟨a, b, c⟩ := v
  simp only [List.map_cons, List.nodup_cons] at a
  refine ⟨by simpa using a, ?_, ?_⟩
  · intro p hp
    rcases List.mem_cons.mp hp with rfl | hp
    · simp [hi]
    · have : i ≠ p.1 := fun e => a.1 (e ▸ List.mem_map_of_mem hp)
      rw [List.getElem?_set_ne this]
      exact b p (by simp [hp])
  · intro q z hq hn
    simp only [List.map_cons, List.mem_cons, not_or] at hn
    rw [List.getElem?_set_ne (fun e => hn.1 e.symm)] at hq
    exact c q z hq (by simp [hn])

theorem Vars.drop {ts : List Tree} {L : List (Nat × Tree)} {i : Nat} (v : Vars ts ((i, .undef) :: L)) : Vars ts L := by
  obtain ⟨a, b, c⟩ := v
  simp only [List.map_cons, List.nodup_cons] at a
  refine ⟨a.2, fun p hp => b p (by simp [hp]), ?_⟩
  intro q z hq hn
  by_cases e : q = i
  · have := b (i, .undef) (by simp)
    simp only at this
    rw [e] at hq
    rw [this] at hq
    exact (Option.some.inj hq).symm
  · exact c q z hq (by simp [hn, e])

theorem Vars.add {ts : List Tree} {L : List (Nat × Tree)} (v : Vars ts L) {i : Nat} (hi : i < ts.length) (hn : i ∉ L.map Prod.fst) :
    Vars ts ((i, .undef) :: L) := by
  obtain ⟨a, b, c⟩ := v
  refine ⟨by simp only [List.map_cons, List.nodup_cons]; exact ⟨hn, a⟩, ?_, ?_⟩
  · intro p hp
    rcases List.mem_cons.mp hp with rfl | hp
    · have h1 : ts[i]? = some ts[i] := List.getElem?_eq_getElem hi
      rw [h1, c i _ h1 hn]
    · exact b p hp
  · intro q z hq hn'
    simp only [List.map_cons, List.mem_cons, not_or] at hn'
    exact c q z hq hn'.2

/-- cells of all variables -/
def sumCells (L : List (Nat × Tree)) : Nat := Tree.cellsAll (L.map Prod.snd)

theorem cellsAll_undef {ts : List Tree} (h : ∀ x ∈ ts, x = Tree.undef) : Tree.cellsAll ts = 0 := by
  induction ts with
  | nil => rfl
  | cons t ts ih =>
    have := h t (by simp)
    subst this
    simp [Tree.cellsAll, Tree.cells, ih (fun x hx => h x (by simp [hx]))]

theorem Vars.cells {L : List (Nat × Tree)} : ∀ {ts : List Tree}, Vars ts L → Tree.cellsAll ts = sumCells L := by
  induction L with
  | nil =>
    intro ts v
    refine cellsAll_undef fun x hx => ?_
    obtain ⟨i, hi⟩ := List.mem_iff_getElem?.mp hx
    exact v.2.2 i x hi (by simp)
  | cons p L ih =>
    obtain ⟨i, y⟩ := p
    intro ts v
    have h1 := ih (v.set .undef).drop
    have h2 := cellsAll_set (v.2.1 (i, y) (by simp)) .undef
    simp only [Tree.cells, sumCells, List.map_cons, Tree.cellsAll] at *
    omega

theorem sumCells_append (L F : List (Nat × Tree)) : sumCells (L ++ F) = sumCells L + sumCells F := by
  simp [sumCells, cellsAll_append]

/-- A state during the program: `n` variables; those that matter are `L`, others that hold something are `F`; `a` heap objects were allocated so far, `k` are
lost, where the objects of `F` count as lost. -/
def St (h : Heap) (n : Nat) (L : List (Nat × Tree)) (a k : Nat) : Prop :=
  ∃ ts F k0, Inv h (.arr ts) ∧ ts.length = n ∧ Vars ts (L ++ F) ∧ h.next = 1 + a ∧ live h = (Tree.arr ts).cells + k0 ∧ k = k0 + sumCells F

theorem St.perm {h : Heap} {n : Nat} {L L' : List (Nat × Tree)} {a k : Nat} (s : St h n L a k) (hp : L.Perm L') : St h n L' a k := by
  obtain ⟨ts, F, k0, h1, h2, h3, h4⟩ := s
  exact ⟨ts, F, k0, h1, h2, h3.perm (hp.append_right F), h4⟩

theorem St.live {h : Heap} {n : Nat} {L : List (Nat × Tree)} {a k : Nat} (s : St h n L a k) : live h = 1 + sumCells L + k := by
  obtain ⟨ts, F, k0, _, _, h3, _, h5, h6⟩ := s
  rw [h5, Tree.cells, h3.cells, sumCells_append]
  omega

/-- A variable that is not used any more. -/
theorem St.forget {h n L a k} {i : Nat} {x : Tree} (s : St h n ((i, x) :: L) a k) : St h n L a (k + x.cells) := by
  obtain ⟨ts, F, k0, h1, h2, h3, h4, h5, h6⟩ := s
  exact ⟨ts, (i, x) :: F, k0, h1, h2, h3.perm List.perm_middle.symm, h4, h5, by simp only [sumCells, List.map_cons, Tree.cellsAll] at h6 ⊢; omega⟩

theorem St.forgetAll {h n a} : ∀ {L : List (Nat × Tree)} {k : Nat}, St h n L a k → St h n [] a (k + sumCells L) := by
  intro L
  induction L with
  | nil => intro k s; exact s
  | cons p L ih =>
    intro k s
    have := ih s.forget
    simp only [sumCells, List.map_cons, Tree.cellsAll] at this ⊢
    rwa [Nat.add_assoc] at this

theorem exec_one {h h' : Heap} {op : Op} {r : Rep} (hs : step h op = .ok (h', r)) : exec h [op] = .ok h' := by
  simp [exec, run, hs]

theorem exec_cons {h h' : Heap} {op : Op} {ops : List Op} (hs : exec h [op] = .ok h') : exec h (op :: ops) = exec h' ops := by
  simp only [exec] at hs ⊢
  obtain ⟨⟨h1, rs⟩, e, hs⟩ := Res.bind_eq_ok.mp hs
  simp only [run] at e
  obtain ⟨⟨h2, r2⟩, e2, e3⟩ := Res.bind_eq_ok.mp e
  simp only [Res.ok_bind, Res.ok.injEq, Prod.mk.injEq] at e3 hs
  obtain ⟨rfl, rfl⟩ := e3
  subst hs
  simp only [run, e2, Res.ok_bind]
  cases run h2 ops <;> rfl

/-- generic step -/
theorem St.step {h : Heap} {n : Nat} {L : List (Nat × Tree)} {a k : Nat} (s : St h n L a k) {op : Op} {n' : Nat} {L' : List (Nat × Tree)} {a' k' : Nat}
    (hs : ∀ ts F, ts.length = n → Vars ts (L ++ F) → KeysFit (.arr ts) → ∃ ts', pstep (.arr ts) op = some (.arr ts', .done) ∧ ts'.length = n' ∧ Vars ts' (L' ++ F) ∧
      allocated (.arr ts) op = a' ∧ lostBy (.arr ts) op = k') :
    ∃ h', exec h [op] = .ok h' ∧ St h' n' L' (a + a') (k + k') := by
  obtain ⟨ts, F, k0, I, h2, h3, h4, h5, h6⟩ := s
  obtain ⟨ts', p1, p2, p3, p4, p5⟩ := hs ts F h2 h3 I.keysFit
  obtain ⟨h', e, I', c1, c2⟩ := step_ran I p1
  exact ⟨h', exec_one e, ts', F, k0 + k', I', p2, p3, by omega, by omega, by omega⟩

theorem declare_arr (ts : List Tree) (x : Tree) : (Tree.arr ts).declare x = .arr (ts ++ [x]) := rfl

theorem St.bool {h n L a k} (s : St h n L a k) (b : Bool) : ∃ h', exec h [.bool b] = .ok h' ∧ St h' (n + 1) ((n, .bool b) :: L) a k :=
  s.step (n' := n + 1) (a' := 0) (k' := 0) fun ts F hl v _ => ⟨ts ++ [.bool b], rfl, by simp [hl], hl ▸ v.new _, rfl, rfl⟩

theorem St.str {h n L a k} (s : St h n L a k) (x : Bytes) : ∃ h', exec h [.str x] = .ok h' ∧ St h' (n + 1) ((n, .str x) :: L) (a + 1) k :=
  s.step (n' := n + 1) (a' := 1) (k' := 0) fun ts F hl v _ => ⟨ts ++ [.str x], rfl, by simp [hl], hl ▸ v.new _, rfl, rfl⟩

theorem St.array {h n L a k} (s : St h n L a k) : ∃ h', exec h [.array] = .ok h' ∧ St h' (n + 1) ((n, .arr []) :: L) (a + 1) k :=
  s.step (n' := n + 1) (a' := 1) (k' := 0) fun ts F hl v _ => ⟨ts ++ [.arr []], rfl, by simp [hl], hl ▸ v.new _, rfl, rfl⟩

theorem St.object {h n L a k} (s : St h n L a k) : ∃ h', exec h [.object] = .ok h' ∧ St h' (n + 1) ((n, .obj [] []) :: L) (a + 1) k :=
  s.step (n' := n + 1) (a' := 1) (k' := 0) fun ts F hl v _ => ⟨ts ++ [.obj [] []], rfl, by simp [hl], hl ▸ v.new _, rfl, rfl⟩

theorem St.undef {h n L a k} (s : St h n L a k) : ∃ h', exec h [.undef] = .ok h' ∧ St h' (n + 1) ((n, .undef) :: L) a k :=
  s.step (n' := n + 1) (a' := 0) (k' := 0) fun ts F hl v _ => ⟨ts ++ [.undef], rfl, by simp [hl], hl ▸ v.new _, rfl, rfl⟩

theorem St.copy {h n L a k} (s : St h n L a k) {i : Nat} {x : Tree} (hi : (i, x) ∈ L) :
    ∃ h', exec h [.copy [.elem i]] = .ok h' ∧ St h' (n + 1) ((n, x) :: L) (a + x.cells) k :=
  s.step (n' := n + 1) (a' := x.cells) (k' := 0) fun ts F hl v _ => by
    have hg := v.2.1 _ (List.mem_append_left F hi)
    exact ⟨ts ++ [x], by simp [pstep, get_var, hg, declare_arr], by simp [hl], hl ▸ v.new _, by simp [allocated, Tree.cellsAt, get_var, hg], rfl⟩

theorem St.move {h n L a k} {i : Nat} {x : Tree} (s : St h n ((i, x) :: L) a k) :
    ∃ h', exec h [.move [.elem i]] = .ok h' ∧ St h' (n + 1) ((n, x) :: (i, .undef) :: L) a k :=
  s.step (n' := n + 1) (a' := 0) (k' := 0) fun ts F hl v _ => by
    have hg := v.2.1 (i, x) (by simp)
    have hlt := v.lt (p := (i, x)) (by simp)
    have v' := (v.set .undef).new x
    rw [List.length_set, hl] at v'
    exact ⟨ts.set i .undef ++ [x], by simp [pstep, get_var, hg, set_var hlt, declare_arr], by simp [hl], v', rfl, rfl⟩

theorem St.destroy {h n L a k} {i : Nat} {x : Tree} (s : St h n ((i, x) :: L) a k) :
    ∃ h', exec h [.destroy i] = .ok h' ∧ St h' n L a (k + (x.cells - x.released)) :=
  s.step (n' := n) (a' := 0) (k' := x.cells - x.released) fun ts F hl v _ => by
    have hg := v.2.1 (i, x) (by simp)
    have hlt := v.lt (p := (i, x)) (by simp)
    exact ⟨ts.set i .undef, by simp [pstep, get_var, hg, set_var hlt], by simp [hl], (v.set .undef).drop, rfl,
      by simp [lostBy, Tree.cellsAt, Tree.releasedAt, get_var, hg]⟩

theorem St.assign {h n L a k} {i j : Nat} {x y : Tree} (s : St h n ((i, y) :: L) a k) (hj : (j, x) ∈ L) :
    ∃ h', exec h [.assign [.elem i] [.elem j]] = .ok h' ∧ St h' n ((i, x) :: L) (a + x.cells) (k + y.cells) :=
  s.step (n' := n) (a' := x.cells) (k' := y.cells) fun ts F hl v _ => by
    have hg := v.2.1 (i, y) (by simp)
    have hlt := v.lt (p := (i, y)) (by simp)
    have hg2 := v.2.1 (j, x) (by simp [hj])
    have hne : j ≠ i := fun e => (List.nodup_cons.mp v.1).1 (List.mem_map.mpr ⟨(j, x), List.mem_append_left F hj, e⟩)
    simp only at hg hg2
    refine ⟨ts.set i x, ?_, by simp [hl], v.set x, by simp [allocated, Tree.cellsAt, get_var, hg2], by simp [lostBy, Tree.cellsAt, get_var, hg]⟩
    simp [pstep, get_var, hg, hg2, set_var hlt, hne]

theorem St.push {h n L a k} {i j : Nat} {x : Tree} {us : List Tree} (s : St h n ((i, .arr us) :: L) a k) (hj : (j, x) ∈ L) :
    ∃ h', exec h [.pushBack [.elem i] [.elem j]] = .ok h' ∧ St h' n ((i, .arr (us ++ [x])) :: L) (a + x.cells) k :=
  s.step (n' := n) (a' := x.cells) (k' := 0) fun ts F hl v _ => by
    have hg := v.2.1 (i, .arr us) (by simp)
    have hlt := v.lt (p := (i, .arr us)) (by simp)
    have hg2 := v.2.1 (j, x) (by simp [hj])
    have hne : j ≠ i := fun e => (List.nodup_cons.mp v.1).1 (List.mem_map.mpr ⟨(j, x), List.mem_append_left F hj, e⟩)
    simp only at hg hg2
    refine ⟨ts.set i (.arr (us ++ [x])), ?_, by simp [hl], v.set _, by simp [allocated, Tree.cellsAt, get_var, hg2], rfl⟩
    simp [pstep, get_var, hg, hg2, set_var hlt, hne]

/-- cells of the member `k` -/
def oldMember (ks : List Bytes) (us : List Tree) (k : Bytes) : Nat :=
  match (if k ∈ ks then us[ks.idxOf k]? else none) with
  | some u => u.cells
  | none => 0

theorem St.member {h n L a k} {i j : Nat} {x : Tree} {ks : List Bytes} {us : List Tree} (s : St h n ((i, .obj ks us) :: L) a k) (key : Bytes) (hj : (j, x) ∈ L) :
    ∃ h', exec h [.setMember [.elem i] key [.elem j]] = .ok h' ∧
      St h' n ((i, .obj (putMember (ks, us) (key, x)).1 (putMember (ks, us) (key, x)).2) :: L) (a + x.cells) (k + oldMember ks us key) :=
  s.step (n' := n) (a' := x.cells) (k' := oldMember ks us key) fun ts F hl v _ => by
    have hg := v.2.1 (i, .obj ks us) (by simp)
    have hlt := v.lt (p := (i, .obj ks us)) (by simp)
    have hg2 := v.2.1 (j, x) (by simp [hj])
    have hne : j ≠ i := fun e => (List.nodup_cons.mp v.1).1 (List.mem_map.mpr ⟨(j, x), List.mem_append_left F hj, e⟩)
    simp only at hg hg2
    have hgm := get_mem (t := .arr ts) (dst := [.elem i]) (ks := ks) (ts := us) (by rw [get_var, hg]) key
    refine ⟨ts.set i (.obj (putMember (ks, us) (key, x)).1 (putMember (ks, us) (key, x)).2), ?_, by simp [hl], v.set _,
      by simp [allocated, Tree.cellsAt, get_var, hg2], ?_⟩
    · by_cases hk : key ∈ ks <;> simp [pstep, get_var, hg, hg2, set_var hlt, hne, hk, putMember]
    · simp only [lostBy, Tree.cellsAt, hgm, oldMember]
      split <;> simp_all

theorem St.delegate {h n L a k} {i : Nat} (s : St h n ((i, .undef) :: L) a k) (z : Int) :
    ∃ h', exec h [.delegateInt [.elem i] z] = .ok h' ∧ St h' n ((i, .int z) :: L) (a + 1) k :=
  s.step (n' := n) (a' := 1) (k' := 0) fun ts F hl v _ => by
    have hg := v.2.1 (i, .undef) (by simp)
    have hlt := v.lt (p := (i, .undef)) (by simp)
    simp only at hg
    exact ⟨ts.set i (.int z), by simp [pstep, pstep.delegated, get_var, hg, set_var hlt], by simp [hl], v.set _, rfl,
      by simp [lostBy, isUndef, get_var, hg]⟩

theorem St.dropInt {h n L a k} {i : Nat} {z : Int} (s : St h n ((i, .int z) :: L) a k) :
    ∃ h', exec h [.dropInt i] = .ok h' ∧ St h' n L a k :=
  s.step (n' := n) (a' := 0) (k' := 0) fun ts F hl v _ => by
    have hg := v.2.1 (i, .int z) (by simp)
    have hlt := v.lt (p := (i, .int z)) (by simp)
    simp only at hg
    exact ⟨ts.set i .undef, by simp [pstep, get_var, hg, set_var hlt], by simp [hl], (v.set _).drop, rfl, rfl⟩

/-- the type of a variable can be read -/
theorem St.type {h n L a k} (s : St h n L a k) {i : Nat} {x : Tree} (hi : (i, x) ∈ L) :
    ∃ w l, readAt h ⟨0, i⟩ = .ok w ∧ Holds h w x l := by
  obtain ⟨ts, F, k0, ⟨l, H, nd, _⟩, h2, h3, _⟩ := s
  cases H with
  | arr hc hall =>
    obtain ⟨w, l1, l2, a1, a2, _⟩ := holdsAll_focus hall (h3.2.1 _ (List.mem_append_left F hi))
    exact ⟨w, l1, by simp [readAt, hc, Cell.kids, a1], a2⟩

end Eni.Owner
