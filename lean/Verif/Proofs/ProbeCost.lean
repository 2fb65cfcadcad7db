import Verif.Model.ProbeCost
import Verif.Proofs.JsonParse
import Verif.Proofs.HashWeak
import Verif.Proofs.StringMap
import Verif.Proofs.JsonComplete
import Verif.Proofs.HashDiff
import Verif.Spec.ProbeCost
import Mathlib.Data.List.Rotate
import Mathlib.Data.Nat.ModEq
import Mathlib.Tactic.Ring
/-!
# Counting the buckets that are looked at

Helper lemmas, no property statements.
-/

namespace Eni
namespace Table
variable {E K : Type} [DecidableEq K]

theorem lookupLoopP_fst (keyOf : E → Option K) (bs : List (Bucket E)) (nb : Nat) (h : UInt32) (k : K) : ∀ (fuel i : Nat) (ft : Option Nat),
    lookupLoop keyOf bs nb h k fuel i ft = (lookupLoopP keyOf bs nb h k fuel i ft >>= fun x => .ok x.1) := by
  intro fuel
  induction fuel with
  | zero => intro i ft; rfl
  | succ fuel ih =>
    intro i ft
    unfold lookupLoop lookupLoopP
    cases bs[i]? with
    | none => rfl
    | some b =>
      dsimp only
      cases b.slot with
      | empty =>
        dsimp only
        cases ft with
        | none => rfl
        | some j =>
          dsimp only
          split
          · cases bs[j]? <;> rfl
          · rfl
      | tomb =>
        dsimp only
        rw [ih]
        cases lookupLoopP keyOf bs nb h k fuel (nextIdx nb i) _ <;> rfl
      | full e =>
        dsimp only
        split
        · cases keyOf e with
          | none => rfl
          | some k' =>
            dsimp only
            split
            · rfl
            · rw [ih]
              cases lookupLoopP keyOf bs nb h k fuel (nextIdx nb i) _ <;> rfl
        · rw [ih]
          cases lookupLoopP keyOf bs nb h k fuel (nextIdx nb i) _ <;> rfl

theorem lookupBucketForP_fst (hash : K → UInt32) (keyOf : E → Option K) (t : Table E) (k : K) :
    lookupBucketFor hash keyOf t k = (lookupBucketForP hash keyOf t k >>= fun x => .ok x.1) := by
  unfold lookupBucketFor lookupBucketForP
  dsimp only
  generalize (if t.init = false then initTable 16 else t) = u
  split
  · rfl
  · rw [lookupLoopP_fst]
    cases lookupLoopP keyOf u.buckets u.nb (hash k) k (u.nb + 1) ((hash k).toNat % u.nb) none <;> rfl

theorem insertCnt_fst (hash : K → UInt32) (keyOf : E → Option K) (t : Table E) (k : K) (mk : E) :
    insertE hash keyOf t k mk = (insertCnt hash keyOf t k mk >>= fun x => .ok x.1) := by
  unfold insertE insertCnt
  rw [lookupBucketForP_fst]
  cases lookupBucketForP hash keyOf t k with
  | ok x =>
    obtain ⟨⟨u, i⟩, c⟩ := x
    simp only [Res.ok_bind]
    cases u.buckets[i]? with
    | none => rfl
    | some b =>
      dsimp only
      cases b.slot with
      | full e => rfl
      | empty => dsimp only; cases mayRehash _ <;> rfl
      | tomb => dsimp only; cases mayRehash _ <;> rfl
  | throw e => rfl
  | ub u => rfl
  | diverge => rfl
  | exit c => rfl

end Table

namespace SMap
variable {V : Type}
theorem assignP_fst (m : SMap V) (k : Bytes) (v : V) : assign m k v = (assignP m k v >>= fun x => .ok x.1) := by
  unfold assign assignP insert
  rw [Table.insertCnt_fst]
  cases Table.insertCnt Hasher.sdbm SEntry.keyO m k (SEntry.mk' k v) with
  | ok x =>
    obtain ⟨⟨u, i, ex⟩, c⟩ := x
    simp only [Res.ok_bind]
    cases ex with
    | true =>
      simp only [if_true]
      cases hb : u.buckets[i]? with
      | none => rfl
      | some b =>
        obtain ⟨bh, sl⟩ := b
        cases sl <;> rfl
    | false => rfl
  | throw e => rfl
  | ub u => rfl
  | diverge => rfl
  | exit c => rfl
end SMap

namespace Json
theorem setParentP_fst (cb : CbState) (v : Value) : setParent cb v = (setParentP cb v >>= fun x => .ok x.1) := by
  obtain ⟨stack, root⟩ := cb
  unfold setParent setParentP
  cases stack with
  | nil => rfl
  | cons x rest =>
    obtain ⟨x, key⟩ := x
    cases x with
    | obj m =>
      dsimp only
      rw [SMap.assignP_fst]
      cases SMap.assignP m key v <;> rfl
    | _ => rfl

theorem cbStepP_fst (cb : CbState) (e : Ev) : cbStep cb e = (cbStepP cb e >>= fun x => .ok x.1) := by
  cases e with
  | boolean b => exact setParentP_fst cb _
  | number s => exact setParentP_fst cb _
  | string s b =>
    cases b with
    | true => unfold cbStep cbStepP; cases cb.stack <;> rfl
    | false => exact setParentP_fst cb _
  | beginArray => rfl
  | beginObject => rfl
  | endArray => unfold cbStep cbStepP; cases cb.stack with
    | nil => rfl
    | cons x xs => exact setParentP_fst _ _
  | endObject => unfold cbStep cbStepP; cases cb.stack with
    | nil => rfl
    | cons x xs => exact setParentP_fst _ _

theorem cbRunP_fst : ∀ (es : List Ev) (cb : CbState), cbRun cb es = (cbRunP cb es >>= fun x => .ok x.1) := by
  intro es
  induction es with
  | nil => intro cb; rfl
  | cons e es ih =>
    intro cb
    simp only [cbRun, cbRunP]
    rw [cbStepP_fst]
    cases cbStepP cb e with
    | ok x =>
      simp only [Res.ok_bind]
      rw [ih]
      cases cbRunP x.1 es <;> rfl
    | throw e => rfl
    | ub u => rfl
    | diverge => rfl
    | exit c => rfl

theorem parseP_fst (L : Layout) (s : Bytes) : parse L s = (parseP L s >>= fun x => .ok x.1) := by
  unfold parse parseP
  cases parseValue L (s.length + 1) ⟨s, []⟩ with
  | ok u st => dsimp only; rw [cbRunP_fst]; cases cbRunP .init st.ev <;> rfl
  | err e st => dsimp only; rw [cbRunP_fst]; cases cbRunP .init st.ev <;> rfl
  | ub u => rfl
  | diverge => rfl
end Json
end Eni

namespace Eni
namespace Table
variable {E K : Type}

theorem run_le {bs : List (Bucket E)} {s d : Nat} (hd : d ≤ bs.length)
    (h : ∀ d' < d, ∀ b, bs[(s + d') % bs.length]? = some b → b.slot ≠ .empty) : d ≤ (ents bs).length + tmb bs := by
  have hp : (bs.rotate s).Perm bs := List.rotate_perm bs s
  have h0 : emp ((bs.rotate s).take d) = 0 := by
    rw [emp, List.countP_eq_zero]
    intro b hb he
    obtain ⟨i, hi⟩ := List.mem_iff_getElem?.mp hb
    have hid : i < d := by
      rcases Nat.lt_or_ge i d with h1 | h1
      · exact h1
      · rw [List.getElem?_eq_none (by simp; omega)] at hi
        exact absurd hi (by simp)
    rw [List.getElem?_take_of_lt hid, List.getElem?_rotate (by omega), Nat.add_comm] at hi
    refine h i hid b hi ?_
    unfold isEmpty at he
    cases hs : b.slot <;> simp_all
  have h1 := count_total ((bs.rotate s).take d)
  have h2 : (ents ((bs.rotate s).take d)).length ≤ (ents (bs.rotate s)).length := ((List.take_sublist d _).filterMap _).length_le
  have h3 : tmb ((bs.rotate s).take d) ≤ tmb (bs.rotate s) := (List.take_sublist d _).countP_le
  have h4 : (ents (bs.rotate s)).length = (ents bs).length := (hp.filterMap _).length_eq
  have h5 : tmb (bs.rotate s) = tmb bs := hp.countP_eq _
  rw [List.length_take, List.length_rotate] at h1
  omega

theorem run_ge {bs : List (Bucket E)} {s d : Nat} (h : ∀ d' < bs.length, ∀ b e, bs[(s + d') % bs.length]? = some b → b.slot = .full e → d' < d) :
    (ents bs).length ≤ d := by
  have hp : (bs.rotate s).Perm bs := List.rotate_perm bs s
  have h0 : ents ((bs.rotate s).drop d) = [] := by
    rw [ents, List.filterMap_eq_nil_iff]
    intro b hb
    obtain ⟨i, hi⟩ := List.mem_iff_getElem?.mp hb
    rw [List.getElem?_drop] at hi
    have hlt := lt_of_get hi
    rw [List.length_rotate] at hlt
    rw [List.getElem?_rotate hlt, Nat.add_comm] at hi
    cases hs : b.slot with
    | full e => exact absurd (h _ hlt b e hi hs) (by omega)
    | empty => simp [slotEntry, hs]
    | tomb => simp [slotEntry, hs]
  have h4 : (ents (bs.rotate s)).length = (ents bs).length := (hp.filterMap _).length_eq
  have h1 : ents (bs.rotate s) = ents ((bs.rotate s).take d) ++ ents ((bs.rotate s).drop d) := by
    rw [ents, ents, ents, ← List.filterMap_append, List.take_append_drop]
  rw [h0, List.append_nil] at h1
  rw [h1] at h4
  have h2 : (ents ((bs.rotate s).take d)).length ≤ ((bs.rotate s).take d).length := List.length_filterMap_le _ _
  rw [List.length_take] at h2
  omega

variable [DecidableEq K]

theorem lookupLoopP_skip {keyOf : E → Option K} {bs : List (Bucket E)} {h : UInt32} {k : K}
    (live : ∀ e ∈ ents bs, ∃ k, keyOf e = some k) (pos : 0 < bs.length) (s d fuel : Nat)
    (hns : ∀ d' < d, ∀ b, bs[(s + d') % bs.length]? = some b → ¬ Stop keyOf h k b) :
    ∃ ft, lookupLoopP keyOf bs bs.length h k (fuel + d) (s % bs.length) none =
      (lookupLoopP keyOf bs bs.length h k fuel ((s + d) % bs.length) ft >>= fun x => .ok (x.1, x.2 + d)) := by
  induction d generalizing fuel with
  | zero =>
    refine ⟨none, ?_⟩
    simp only [Nat.add_zero]
    cases lookupLoopP keyOf bs bs.length h k fuel (s % bs.length) none <;> rfl
  | succ d ih =>
    obtain ⟨ft, heq⟩ := ih (fuel + 1) (fun d' hd' => hns d' (by omega))
    rw [show fuel + (d + 1) = (fuel + 1) + d by omega, heq]
    obtain ⟨b, hb⟩ := get_of_lt (Nat.mod_lt (s + d) pos)
    have hs := hns d (by omega) b hb
    rw [← nextIdx_add pos]
    have fin : ∀ ft', ∃ ft'', ((lookupLoopP keyOf bs bs.length h k fuel (nextIdx bs.length ((s + d) % bs.length)) ft' >>= fun x => .ok (x.1, x.2 + 1)) >>=
        fun x => .ok (x.1, x.2 + d) : Res ((List (Bucket E) × Nat) × Nat)) =
        (lookupLoopP keyOf bs bs.length h k fuel (nextIdx bs.length ((s + d) % bs.length)) ft'' >>= fun x => .ok (x.1, x.2 + (d + 1))) := by
      intro ft'
      refine ⟨ft', ?_⟩
      cases lookupLoopP keyOf bs bs.length h k fuel (nextIdx bs.length ((s + d) % bs.length)) ft' with
      | ok x => simp only [Res.ok_bind, Nat.add_assoc, Nat.add_comm 1 d]
      | _ => rfl
    conv => enter [1, ft, 1]; unfold lookupLoopP
    simp only [hb]
    cases hsl : b.slot with
    | empty => exact absurd (Or.inl hsl) hs
    | tomb => exact fin _
    | full e =>
      simp only
      split
      · rename_i hh
        obtain ⟨k', hk'⟩ := live e (mem_ents.mpr ⟨_, _, hb, hsl⟩)
        simp only [hk']
        split
        · rename_i hkk
          exact absurd (Or.inr ⟨e, hsl, hh, hkk ▸ hk'⟩) hs
        · exact fin _
      · exact fin _

/-- the number of buckets looked at is the distance of the first one that ends the search, plus one -/
theorem lookupLoopP_count {keyOf : E → Option K} {bs : List (Bucket E)} {h : UInt32} {k : K}
    (live : ∀ e ∈ ents bs, ∃ k, keyOf e = some k) {s d : Nat} {b : Bucket E} (hd : d < bs.length) (hb : bs[(s + d) % bs.length]? = some b)
    (hst : Stop keyOf h k b) (hmin : ∀ d' < d, ∀ b, bs[(s + d') % bs.length]? = some b → ¬ Stop keyOf h k b) {r : List (Bucket E) × Nat} {c : Nat}
    (e : lookupLoopP keyOf bs bs.length h k (bs.length + 1) (s % bs.length) none = .ok (r, c)) : c = d + 1 := by
  obtain ⟨ft, hskip⟩ := lookupLoopP_skip (keyOf := keyOf) (h := h) (k := k) live (by omega) s d (bs.length - d + 1) hmin
  rw [show bs.length - d + 1 + d = bs.length + 1 by omega, e] at hskip
  obtain ⟨x, hx, hx2⟩ := Res.bind_eq_ok.mp hskip.symm
  simp only [Res.ok.injEq, Prod.mk.injEq] at hx2
  have : x.2 = 1 := by
    unfold lookupLoopP at hx
    simp only [hb] at hx
    rcases hst with he | ⟨e', hs, hh, hk⟩
    · simp only [he] at hx
      cases ft with
      | none => simp only [Res.ok.injEq] at hx; rw [← hx]
      | some j =>
        dsimp only at hx
        split at hx
        · split at hx
          · simp only [Res.ok.injEq] at hx; rw [← hx]
          · exact absurd hx (by simp)
        · exact absurd hx (by simp)
    · simp only [hs, hh, hk, if_true] at hx
      simp only [Res.ok.injEq] at hx
      rw [← hx]
  omega

/-- a search looks at no more buckets than are taken, plus one -/
theorem insertCnt_le {hash : K → UInt32} {keyOf : E → Option K} {t : Table E} (C : Counted t) (live : ∀ e, ∃ k, keyOf e = some k) {k : K} {mk : E}
    {x : Table E × Nat × Bool} {c : Nat} (e : insertCnt hash keyOf t k mk = .ok (x, c)) : c ≤ t.ne + t.nt + 1 := by
  have hr := C.room
  have hlen := C.len
  have hne := C.ne_eq
  have hnt := C.nt_eq
  rw [entries_eq] at hne
  rw [tombs_eq] at hnt
  have ht0 : (if t.init = false then initTable 16 else t) = t := by rw [if_neg (by simp [C.init])]
  obtain ⟨⟨⟨u, i⟩, c'⟩, e1, e2⟩ := Res.bind_eq_ok.mp e
  have hc : c = c' := by
    dsimp only at e2
    split at e2
    · exact absurd e2 (by simp)
    · split at e2
      · simp only [Res.ok.injEq, Prod.mk.injEq] at e2; exact e2.2.symm
      · obtain ⟨t', _, e3⟩ := Res.bind_eq_ok.mp e2
        simp only [Res.ok.injEq, Prod.mk.injEq] at e3; exact e3.2.symm
  subst hc
  simp only [lookupBucketForP, ht0, if_neg (by omega : ¬ t.nb = 0)] at e1
  obtain ⟨⟨r, c'⟩, e3, e4⟩ := Res.bind_eq_ok.mp e1
  simp only [Res.ok.injEq, Prod.mk.injEq] at e4
  have hroom : (ents t.buckets).length + tmb t.buckets < t.buckets.length := by omega
  obtain ⟨d, b, hd, hb, hst, hmin⟩ := stop_exists (keyOf := keyOf) (h := hash k) (k := k) hroom (hash k).toNat
  rw [← hlen] at e3
  have h1 := lookupLoopP_count (fun e _ => live e) hd hb hst hmin e3
  have h2 := run_le (bs := t.buckets) (s := (hash k).toNat) (d := d) (by omega) (fun d' hd' b hb he => hmin d' hd' b hb (Or.inl he))
  omega

/-- a search for a key that is not there looks at every entry, if all keys have the hash value of that key -/
theorem insertCnt_ge {hash : K → UInt32} {keyOf : E → Option K} {t : Table E} (W : WF hash keyOf t) {k : K} (hno : ∀ e ∈ t.entries, keyOf e ≠ some k)
    (hall : ∀ e ∈ t.entries, ∀ k', keyOf e = some k' → hash k' = hash k) {mk : E}
    {x : Table E × Nat × Bool} {c : Nat} (e : insertCnt hash keyOf t k mk = .ok (x, c)) : t.ne + 1 ≤ c := by
  have hr := W.room
  have hlen := W.len
  have hne := W.ne_eq
  have hnt := W.nt_eq
  rw [entries_eq] at hne hno hall
  rw [tombs_eq] at hnt
  have ht0 : (if t.init = false then initTable 16 else t) = t := by rw [if_neg (by simp [W.init])]
  obtain ⟨⟨⟨u, i⟩, c'⟩, e1, e2⟩ := Res.bind_eq_ok.mp e
  have hc : c = c' := by
    dsimp only at e2
    split at e2
    · exact absurd e2 (by simp)
    · split at e2
      · simp only [Res.ok.injEq, Prod.mk.injEq] at e2; exact e2.2.symm
      · obtain ⟨t', _, e3⟩ := Res.bind_eq_ok.mp e2
        simp only [Res.ok.injEq, Prod.mk.injEq] at e3; exact e3.2.symm
  subst hc
  simp only [lookupBucketForP, ht0, if_neg (by omega : ¬ t.nb = 0)] at e1
  obtain ⟨⟨r, c'⟩, e3, e4⟩ := Res.bind_eq_ok.mp e1
  simp only [Res.ok.injEq, Prod.mk.injEq] at e4
  have hroom : (ents t.buckets).length + tmb t.buckets < t.buckets.length := by omega
  obtain ⟨d, b, hd, hb, hst, hmin⟩ := stop_exists (keyOf := keyOf) (h := hash k) (k := k) hroom (hash k).toNat
  rw [← hlen] at e3
  have h1 := lookupLoopP_count W.lay.live hd hb hst hmin e3
  have he : b.slot = .empty := by
    rcases hst with he | ⟨e', hs, _, hk⟩
    · exact he
    · exact absurd hk (hno e' (mem_ents.mpr ⟨_, _, hb, hs⟩))
  have h2 := run_ge (bs := t.buckets) (s := (hash k).toNat) (d := d) (by
    intro d' hd' b' e' hb' hs'
    obtain ⟨k', hk', hh⟩ := W.lay.hashOk b' (List.mem_of_getElem? hb') e' hs'
    rw [hall e' (mem_ents.mpr ⟨_, _, hb', hs'⟩) k' hk'] at hh
    obtain ⟨d2, hd2, hi2, hre⟩ := W.lay.reach _ b' e' hb' hs'
    rw [hh] at hi2 hre
    simp only [Nat.mod_add_mod] at hi2 hre
    have hdd : d' = d2 := by
      have := Nat.ModEq.add_left_cancel' (hash k).toNat (a := d') (b := d2) (n := t.buckets.length) hi2
      unfold Nat.ModEq at this
      rwa [Nat.mod_eq_of_lt hd', Nat.mod_eq_of_lt hd2] at this
    subst hdd
    rcases Nat.lt_trichotomy d d' with h | h | h
    · obtain ⟨b2, hb2, hne2⟩ := hre d h
      rw [hb] at hb2
      exact absurd (Option.some.inj hb2 ▸ he) hne2
    · subst h
      rw [hb] at hb'
      rw [← Option.some.inj hb', he] at hs'
      exact absurd hs' (by simp)
    · exact h)
  omega

omit [DecidableEq K] in
theorem mayRehash_nt {t t' : Table E} (h : mayRehash t = .ok t') : t'.nt = 0 ∨ t' = t := by
  have hd : ∀ n, doRehash t n = .ok t' → t'.nt = 0 := by
    intro n hn
    unfold doRehash at hn
    split at hn
    · exact absurd hn (by simp)
    · obtain ⟨x, _, hx⟩ := Res.bind_eq_ok.mp hn
      simp only [Res.ok.injEq] at hx
      rw [← hx]
  unfold mayRehash at h
  split at h
  · exact Or.inl (hd _ h)
  · split at h
    · exact Or.inl (hd _ h)
    · simp only [Res.ok.injEq] at h
      exact Or.inr h.symm

/-- without removals no tombstones appear -/
theorem insertE_nt {hash : K → UInt32} {keyOf : E → Option K} {t : Table E} (C : Counted t) (live : ∀ e, ∃ k, keyOf e = some k) (h0 : t.nt = 0) {k : K} {mk : E}
    {x : Table E × Nat × Bool} (e : insertE hash keyOf t k mk = .ok x) : x.1.nt = 0 := by
  have hr := C.room
  have hlen := C.len
  have hsm := C.small
  have hne := C.ne_eq
  have hnt := C.nt_eq
  rw [entries_eq] at hne
  rw [tombs_eq] at hnt
  have ht0 : (if t.init = false then initTable 16 else t) = t := by rw [if_neg (by simp [C.init])]
  rcases lookupLoop_counted (fun e _ => live e) (by omega : (ents t.buckets).length + tmb t.buckets < t.buckets.length) (by omega)
    (hash k) k with ⟨i, b, e', h, hi, hs⟩ | ⟨j, b, hj, hfree, h⟩
  · rw [hlen] at h
    simp only [insertE, lookupBucketFor, ht0, if_neg (by omega : ¬ t.nb = 0), h, Res.ok_bind, hi, hs, Res.ok.injEq] at e
    rw [← e]
    exact h0
  · have hb : b.slot = .empty := by
      rcases hfree with hb | hb
      · exact hb
      · have : 0 < tmb t.buckets := List.countP_pos_iff.mpr ⟨b, List.mem_of_getElem? hj, by simp [isTomb, hb]⟩
        omega
    have hset2 : (t.buckets.set j { b with hash := hash k })[j]? = some { b with hash := hash k } := by
      rw [List.getElem?_set_self (lt_of_get hj)]
    rw [hlen] at h
    rw [hb] at h hset2
    simp only [insertE, lookupBucketFor, ht0, if_neg (by omega : ¬ t.nb = 0), h, Res.ok_bind, hset2] at e
    obtain ⟨t', e1, e2⟩ := Res.bind_eq_ok.mp e
    simp only [Res.ok.injEq] at e2
    rw [← e2]
    rcases mayRehash_nt e1 with h1 | h1
    · exact h1
    · rw [h1]; exact h0

end Table

namespace SMap
open Spec
variable {V : Type}

theorem assignP_parts {t : SMap V} {k : Bytes} {v : V} {x : SMap V × Bool} {c : Nat} (e : assignP t k v = .ok (x, c)) :
    ∃ y, Table.insertCnt Hasher.sdbm SEntry.keyO t k (SEntry.mk' k v) = .ok (y, c) ∧ x.1.nt = y.1.nt := by
  obtain ⟨⟨⟨u, i, ex⟩, c'⟩, e1, e2⟩ := Res.bind_eq_ok.mp e
  dsimp only at e2
  split at e2
  · split at e2
    · simp only [Res.ok.injEq, Prod.mk.injEq] at e2
      refine ⟨_, e2.2 ▸ e1, ?_⟩
      rw [← e2.1]
    · exact absurd e2 (by simp)
  · simp only [Res.ok.injEq, Prod.mk.injEq] at e2
    refine ⟨_, e2.2 ▸ e1, ?_⟩
    rw [← e2.1]

theorem assignP_le {t : SMap V} (C : Table.Counted t) (h0 : t.nt = 0) {k : Bytes} {v : V} {x : SMap V × Bool} {c : Nat} (e : assignP t k v = .ok (x, c)) :
    c ≤ t.ne + 1 ∧ x.1.nt = 0 := by
  obtain ⟨y, e1, e2⟩ := assignP_parts e
  have h1 := Table.insertCnt_le C (fun e => ⟨_, rfl⟩) e1
  have h2 := Table.insertE_nt (hash := Hasher.sdbm) (keyOf := SEntry.keyO) (k := k) (mk := SEntry.mk' k v) C (fun e => ⟨_, rfl⟩) h0 (x := y) (by rw [Table.insertCnt_fst, e1]; rfl)
  exact ⟨by omega, by rw [e2]; exact h2⟩

/-- storing one more of many keys with the same hash value -/
theorem assignP_crowded {t : SMap V} {m : FMap Bytes V} (R : SRel t m) (hi : t.init = true) (h0 : t.nt = 0) (hm : m.length < 1073643498) {k : Bytes}
    (hk : k.length < 65536) (hno : m.lookup k = none) (hall : ∀ kv ∈ m, Hasher.sdbm kv.1 = Hasher.sdbm k) (v : V) :
    ∃ t', assignP t k v = .ok ((t', false), m.length + 1) ∧ SRel t' ((k, v) :: m) ∧ t'.init = true ∧ t'.nt = 0 := by
  obtain ⟨t', h1, h2, h3⟩ := assign_sim R hm hk v
  have W : Table.WF Hasher.sdbm SEntry.keyO t := by
    rcases R.good with rfl | W
    · exact absurd hi (by simp [Table.null])
    · exact W
  have h4 := h1
  rw [assignP_fst] at h4
  obtain ⟨⟨x, c⟩, e1, e2⟩ := Res.bind_eq_ok.mp h4
  simp only [Res.ok.injEq] at e2
  have hle := assignP_le W.counted h0 e1
  obtain ⟨y, e3, _⟩ := assignP_parts e1
  have hmem : ∀ e ∈ t.entries, (e.key, e.val) ∈ m := fun e he => R.abs.mem_iff.mp (List.mem_map.mpr ⟨e, he, rfl⟩)
  have hge := Table.insertCnt_ge W (k := k) (by
    intro e he hke
    simp only [SEntry.keyO, Option.some.injEq] at hke
    rw [FMap.lookup_none_iff] at hno
    exact hno e.val (hke ▸ hmem e he)) (by
    intro e he k' hk'
    simp only [SEntry.keyO, Option.some.injEq] at hk'
    rw [← hk']
    exact hall _ (hmem e he)) e3
  have hne := R.ne_eq
  rw [hno] at e2
  have hc : c = m.length + 1 := by omega
  subst hc
  have her : m.erase k = m := by
    rw [FMap.erase, List.filter_eq_self]
    intro kv hkv
    have := FMap.lookup_none_iff.mp hno kv.2
    refine decide_eq_true fun h => this ?_
    rw [← h]
    exact hkv
  rw [FMap.set, her] at h3
  refine ⟨t', by rw [e1, e2]; rfl, h3, h2 hi, ?_⟩
  have := hle.2
  rw [e2] at this
  exact this

end SMap
end Eni

namespace Eni.Json
open Spec

/-! ### upper bound -/

/-- the tables under construction -/
def Tidy (N : Nat) (cb : CbState) : Prop := ∀ x ∈ cb.stack, ∀ m, x.1 = Value.obj m → Table.Counted m ∧ m.nt = 0 ∧ m.ne ≤ N

theorem Tidy.mono {N M : Nat} {cb : CbState} (h : Tidy N cb) (hNM : N ≤ M) : Tidy M cb :=
  fun x hx m hm => ⟨(h x hx m hm).1, (h x hx m hm).2.1, le_trans (h x hx m hm).2.2 hNM⟩

theorem setParentP_le {N : Nat} {cb : CbState} (h : Tidy N cb) (hN : N < 1073643498) (v : Value) {cb' : CbState} {c : Nat} (e : setParentP cb v = .ok (cb', c)) :
    c ≤ N + 1 ∧ Tidy (N + 1) cb' := by
  obtain ⟨stack, root⟩ := cb
  cases stack with
  | nil =>
    simp only [setParentP, Res.ok.injEq, Prod.mk.injEq] at e
    refine ⟨by omega, ?_⟩
    rw [← e.1]
    intro x hx
    exact absurd hx (by simp)
  | cons x rest =>
    obtain ⟨x, key⟩ := x
    have hrest : ∀ y ∈ rest, ∀ m, y.1 = Value.obj m → Table.Counted m ∧ m.nt = 0 ∧ m.ne ≤ N + 1 :=
      fun y hy => (h.mono (by omega)) y (List.mem_cons_of_mem _ hy)
    cases x with
    | obj m =>
      obtain ⟨hc, h0, hne⟩ := h _ (List.mem_cons_self) m rfl
      simp only [setParentP] at e
      obtain ⟨⟨⟨m', b⟩, c'⟩, e1, e2⟩ := Res.bind_eq_ok.mp e
      simp only [Res.ok.injEq, Prod.mk.injEq] at e2
      have h1 := SMap.assignP_le hc h0 e1
      obtain ⟨t', b', h2, h3, h4, _⟩ := SMap.assign_counted hc (by omega) key v
      rw [SMap.assignP_fst, e1] at h2
      simp only [Res.ok_bind, Res.ok.injEq, Prod.mk.injEq] at h2
      obtain ⟨rfl, rfl⟩ := h2
      obtain ⟨rfl, rfl⟩ := e2
      refine ⟨by omega, ?_⟩
      intro y hy m2 hm2
      rcases List.mem_cons.mp hy with rfl | hy
      · simp only [Value.obj.injEq] at hm2
        subst hm2
        exact ⟨h3, h1.2, by omega⟩
      · exact hrest y hy m2 hm2
    | arr vs =>
      simp only [setParentP, Res.ok.injEq, Prod.mk.injEq] at e
      refine ⟨by omega, ?_⟩
      rw [← e.1]
      intro y hy m2 hm2
      rcases List.mem_cons.mp hy with rfl | hy
      · exact absurd hm2 (by simp)
      · exact hrest y hy m2 hm2
    | _ =>
      simp only [setParentP, Res.ok.injEq, Prod.mk.injEq] at e
      refine ⟨by omega, ?_⟩
      rw [← e.1]
      exact h.mono (by omega)

theorem new8_nt : (SMap.new 8 : SMap Value).nt = 0 ∧ (SMap.new 8 : SMap Value).ne = 0 := ⟨rfl, rfl⟩

theorem cbStepP_le {N : Nat} {cb : CbState} (h : Tidy N cb) (hN : N < 1073643498) (ev : Ev) {cb' : CbState} {c : Nat} (e : cbStepP cb ev = .ok (cb', c)) :
    c ≤ N + 1 ∧ Tidy (N + 1) cb' := by
  have close : ∀ {cb' c}, (match cb.stack with
    | [] => .ub .outOfBounds
    | (v, _) :: rest => setParentP { cb with stack := rest } (copyTop v)) = Res.ok (cb', c) → c ≤ N + 1 ∧ Tidy (N + 1) cb' := by
    intro cb' c e
    obtain ⟨stack, root⟩ := cb
    cases stack with
    | nil => exact absurd e (by simp)
    | cons x rest => exact setParentP_le (cb := ⟨rest, root⟩) (fun y hy => h y (List.mem_cons_of_mem _ hy)) hN _ e
  cases ev with
  | boolean b => exact setParentP_le h hN _ e
  | number s => exact setParentP_le h hN _ e
  | string s b =>
    cases b with
    | false => exact setParentP_le h hN _ e
    | true =>
      obtain ⟨stack, root⟩ := cb
      cases stack with
      | nil => exact absurd e (by simp [cbStepP])
      | cons x rest =>
        simp only [cbStepP, Res.ok.injEq, Prod.mk.injEq] at e
        refine ⟨by omega, ?_⟩
        rw [← e.1]
        intro y hy m hm
        rcases List.mem_cons.mp hy with rfl | hy
        · exact (h.mono (by omega)) x List.mem_cons_self m hm
        · exact (h.mono (by omega)) y (List.mem_cons_of_mem _ hy) m hm
  | beginArray =>
    simp only [cbStepP, Res.ok.injEq, Prod.mk.injEq] at e
    refine ⟨by omega, ?_⟩
    rw [← e.1]
    intro y hy m hm
    rcases List.mem_cons.mp hy with rfl | hy
    · exact absurd hm (by simp)
    · exact (h.mono (by omega)) y hy m hm
  | beginObject =>
    simp only [cbStepP, Res.ok.injEq, Prod.mk.injEq] at e
    refine ⟨by omega, ?_⟩
    rw [← e.1]
    intro y hy m hm
    rcases List.mem_cons.mp hy with rfl | hy
    · simp only [Value.obj.injEq] at hm
      subst hm
      exact ⟨new8_counted, rfl, by rw [new8_nt.2]; omega⟩
    · exact (h.mono (by omega)) y hy m hm
  | endArray => exact close e
  | endObject => exact close e

theorem cbRunP_le : ∀ (es : List Ev) {N : Nat} {cb : CbState} (_ : Tidy N cb) (_ : N + es.length ≤ 1073643498) {cb' : CbState} {c : Nat}
    (_ : cbRunP cb es = .ok (cb', c)), 2 * c ≤ es.length * (2 * N + es.length + 1) := by
  intro es
  induction es with
  | nil =>
    intro N cb _ _ cb' c e
    simp only [cbRunP, Res.ok.injEq, Prod.mk.injEq] at e
    simp [← e.2]
  | cons ev es ih =>
    intro N cb h hN cb' c e
    simp only [cbRunP] at e
    simp only [List.length_cons] at hN
    obtain ⟨⟨cb1, c1⟩, e1, e2⟩ := Res.bind_eq_ok.mp e
    obtain ⟨⟨cb2, c2⟩, e3, e4⟩ := Res.bind_eq_ok.mp e2
    simp only [Res.ok.injEq, Prod.mk.injEq] at e4
    obtain ⟨h1, h2⟩ := cbStepP_le h (by omega) ev e1
    have h3 := ih h2 (by omega) e3
    rw [← e4.2, List.length_cons]
    have : (es.length + 1) * (2 * N + (es.length + 1) + 1) = es.length * (2 * (N + 1) + es.length + 1) + (2 * N + 2) := by ring
    omega

theorem parseP_le (L : Layout) (s : Bytes) (hlen : s.length ≤ 1073643498) {x : Parsed} {c : Nat} (e : parseP L s = .ok (x, c)) :
    2 * c ≤ s.length * (s.length + 1) := by
  have h := parseValue_post L (s.length + 1) ⟨s, []⟩ (by simp)
  have fin : ∀ {ev : List Ev} {cb c}, ev.length ≤ s.length → cbRunP .init ev = .ok (cb, c) → 2 * c ≤ s.length * (s.length + 1) := by
    intro ev cb c hl e
    have := cbRunP_le ev (N := 0) (cb := .init) (fun x hx => absurd hx (by simp [CbState.init])) (by omega) e
    have h2 : ev.length * (2 * 0 + ev.length + 1) ≤ s.length * (s.length + 1) := Nat.mul_le_mul hl (by omega)
    omega
  unfold parseP at e
  cases hp : parseValue L (s.length + 1) ⟨s, []⟩ with
  | ub u => rw [hp] at h; exact absurd h id
  | diverge => rw [hp] at h; exact absurd h id
  | ok u st =>
    rw [hp] at h e
    obtain ⟨w, t, j, es, hw, ht, hes, hit, hev, hl⟩ := h
    simp only [List.nil_append] at hit hev
    obtain ⟨⟨cb, c'⟩, e1, e2⟩ := Res.bind_eq_ok.mp e
    simp only [Res.ok.injEq, Prod.mk.injEq] at e2
    refine fin ?_ (e2.2 ▸ e1)
    have := congrArg List.length hit
    simp only [List.length_append] at this
    rw [hev]
    omega
  | err u st =>
    rw [hp] at h e
    obtain ⟨es, hpart, hev, hl⟩ := h
    simp only [List.nil_append] at hev hl
    obtain ⟨⟨cb, c'⟩, e1, e2⟩ := Res.bind_eq_ok.mp e
    simp only [Res.ok.injEq, Prod.mk.injEq] at e2
    refine fin ?_ (e2.2 ▸ e1)
    rw [hev]
    omega

/-! ### keys with the same hash value -/

theorem cbRunP_append (cb : CbState) (a b : List Ev) :
    cbRunP cb (a ++ b) = (cbRunP cb a >>= fun x => cbRunP x.1 b >>= fun y => .ok (y.1, x.2 + y.2)) := by
  induction a generalizing cb with
  | nil =>
    simp only [List.nil_append, cbRunP, Res.ok_bind, Nat.zero_add]
    cases cbRunP cb b <;> rfl
  | cons e a ih =>
    simp only [List.cons_append, cbRunP]
    cases cbStepP cb e with
    | ok x =>
      simp only [Res.ok_bind]
      rw [ih]
      cases cbRunP x.1 a with
      | ok y =>
        simp only [Res.ok_bind]
        cases cbRunP y.1 b with
        | ok z => simp only [Res.ok_bind, Nat.add_assoc]
        | _ => rfl
      | _ => rfl
    | _ => rfl

theorem msOf_crowded {ms : List (Bytes × JV)} : ∀ {es : List Ev} (_ : MsOf es ms) (_ : ∀ kj ∈ ms, ∃ z, kj.2 = JV.int z) (_ : (ms.map Prod.fst).Nodup) (H : UInt32)
    (_ : ∀ kj ∈ ms, kj.1.length < 65536 ∧ Hasher.sdbm kj.1 = H) (m : SMap Value) (fm : FMap Bytes Value) (_ : SRel m fm) (_ : m.init = true) (_ : m.nt = 0)
    (_ : fm.length + ms.length ≤ 1073643498) (_ : ∀ kv ∈ fm, Hasher.sdbm kv.1 = H ∧ kv.1 ∉ ms.map Prod.fst) (key : Bytes) (rest : List (Value × Bytes)) (root : Value),
    ∃ m' key' c, cbRunP ⟨(.obj m, key) :: rest, root⟩ es = .ok (⟨(.obj m', key') :: rest, root⟩, c) ∧
      2 * c = ms.length * (2 * fm.length + ms.length + 1) := by
  induction ms with
  | nil =>
    intro es h _ _ H _ m fm _ _ _ _ _ key rest root
    cases h
    exact ⟨m, key, 0, rfl, by simp⟩
  | cons kj ms ih =>
    intro es h hint hnd H hk m fm R hi h0 hl hfm key rest root
    cases h with
    | @cons es' _ k e j hev hms =>
      obtain ⟨z, hz⟩ := hint (k, j) List.mem_cons_self
      simp only at hz
      subst hz
      cases hev with
      | number ht =>
        rename_i t z
        simp only [List.map_cons, List.nodup_cons] at hnd
        simp only [List.length_cons] at hl
        obtain ⟨hk1, hk2⟩ := hk (k, _) List.mem_cons_self
        have hno : fm.lookup k = none := by
          rw [FMap.lookup_none_iff]
          intro v hv
          exact (hfm _ hv).2 (by simp)
        obtain ⟨m1, e1, R1, hi1, h01⟩ := SMap.assignP_crowded R hi h0 (by omega) hk1 hno (fun kv hkv => by rw [(hfm kv hkv).1, hk2]) (.int (Value.s256OfText t))
        obtain ⟨m', key', c, e2, hc⟩ := ih hms (fun kj hkj => hint kj (List.mem_cons_of_mem _ hkj)) hnd.2 H (fun kj hkj => hk kj (List.mem_cons_of_mem _ hkj))
          m1 _ R1 hi1 h01 (by simp only [List.length_cons]; omega) (by
            intro kv hkv
            rcases List.mem_cons.mp hkv with rfl | hkv
            · exact ⟨hk2, hnd.1⟩
            · exact ⟨(hfm kv hkv).1, fun hh => (hfm kv hkv).2 (by simp only [List.map_cons, List.mem_cons]; exact Or.inr hh)⟩) k rest root
        refine ⟨m', key', 0 + (fm.length + 1 + c), ?_, ?_⟩
        · simp only [cbRunP, cbStepP, List.cons_append, List.nil_append, Res.ok_bind, setParentP, e1, e2]
        · simp only [List.length_cons] at hc ⊢
          have : (ms.length + 1) * (2 * fm.length + (ms.length + 1) + 1) = ms.length * (2 * (fm.length + 1) + ms.length + 1) + (2 * fm.length + 2) := by ring
          omega

theorem parseP_crowded (L : Layout) {w t r : Bytes} {ms : List (Bytes × JV)} (hw : WS w) (ht : JText t (.obj ms)) (hint : ∀ kj ∈ ms, ∃ z, kj.2 = JV.int z)
    (hnd : (ms.map Prod.fst).Nodup) (H : UInt32) (hk : ∀ kj ∈ ms, kj.1.length < 65536 ∧ Hasher.sdbm kj.1 = H) (hl : ms.length ≤ 1073643498) :
    ∃ x c, parseP L (w ++ (t ++ r)) = .ok (⟨true, x⟩, c) ∧ 2 * c = ms.length * (ms.length + 1) := by
  obtain ⟨es, hes, hp⟩ := accepts L ht w r [] ((w ++ (t ++ r)).length + 1) hw (by simp only [List.length_append]; omega) (by rintro ⟨z, hz⟩; exact absurd hz (by simp))
    (Or.inr (.obj (by
      intro k j hkj
      obtain ⟨z, hz⟩ := hint _ hkj
      simp only at hz
      rw [hz]
      exact .int)))
  cases hes with
  | @obj es' _ hms =>
    have R : SRel (SMap.new 8 : SMap Value) [] := SRel.new (by omega)
    obtain ⟨m', key', c, e2, hc⟩ := msOf_crowded hms hint hnd H hk (SMap.new 8) [] R rfl rfl (by simpa using hl) (by simp) [] [] .undef
    refine ⟨copyTop (.obj m'), 0 + (c + (0 + 0)), ?_, ?_⟩
    · unfold parseP
      rw [hp]
      simp only [List.nil_append, cbRunP, cbStepP, Res.ok_bind, CbState.init]
      rw [cbRunP_append, e2]
      simp only [Res.ok_bind, cbRunP, cbStepP, setParentP]
    · simp only [List.length_nil] at hc
      rw [show 2 * 0 + ms.length + 1 = ms.length + 1 by omega] at hc
      omega

/-! ### the words -/

theorem crowdKeys_length (m : Nat) : (crowdKeys m).length = 2 ^ m := by
  induction m with
  | zero => rfl
  | succ m ih => rw [crowdKeys, List.length_append, List.length_map, List.length_map, ih]; omega

theorem crowdKeys_bytes (m : Nat) : ∀ k ∈ crowdKeys m, k.length = 4 * m ∧ ∀ c ∈ k, c ≠ 34 ∧ c ≠ 92 := by
  induction m with
  | zero =>
    intro k hk
    simp only [crowdKeys, List.mem_singleton] at hk
    subst hk
    exact ⟨rfl, by simp⟩
  | succ m ih =>
    intro k hk
    simp only [crowdKeys, List.mem_append, List.mem_map] at hk
    rcases hk with ⟨k', hk', rfl⟩ | ⟨k', hk', rfl⟩
    · obtain ⟨h1, h2⟩ := ih k' hk'
      refine ⟨by simp only [List.length_append, List.length_cons, List.length_nil, h1]; omega, ?_⟩
      intro c hc
      rcases List.mem_append.mp hc with hc | hc
      · clear h1 h2; revert hc; simp only [List.mem_cons, List.not_mem_nil, or_false]; rintro (rfl | rfl | rfl | rfl) <;> decide
      · exact h2 c hc
    · obtain ⟨h1, h2⟩ := ih k' hk'
      refine ⟨by simp only [List.length_append, List.length_cons, List.length_nil, h1]; omega, ?_⟩
      intro c hc
      rcases List.mem_append.mp hc with hc | hc
      · clear h1 h2; revert hc; simp only [List.mem_cons, List.not_mem_nil, or_false]; rintro (rfl | rfl | rfl | rfl) <;> decide
      · exact h2 c hc

theorem crowdKeys_nodup (m : Nat) : (crowdKeys m).Nodup := by
  induction m with
  | zero => simp [crowdKeys]
  | succ m ih =>
    rw [crowdKeys, List.nodup_append]
    refine ⟨ih.map (fun a b h => List.append_cancel_left h), ih.map (fun a b h => List.append_cancel_left h), ?_⟩
    intro a ha b hb hab
    obtain ⟨a', _, rfl⟩ := List.mem_map.mp ha
    obtain ⟨b', _, rfl⟩ := List.mem_map.mp hb
    simp at hab

/-- the hash function continued from `h` -/
def sdbmFrom (h : UInt32) (s : Bytes) : UInt32 := s.foldl (fun h c => Hasher.sx c + (h <<< 6) + (h <<< 16) - h) h

theorem sdbmFrom_zero (s : Bytes) : Hasher.sdbm s = sdbmFrom 0 s := rfl

theorem sdbmFrom_append (h : UInt32) (s t : Bytes) : sdbmFrom h (s ++ t) = sdbmFrom (sdbmFrom h s) t := List.foldl_append

theorem word_same (h : UInt32) : sdbmFrom h [98, 98, 98, 48] = sdbmFrom h [65, 97, 65, 111] := by
  simp only [sdbmFrom, List.foldl_cons, List.foldl_nil, Hasher.sdbm_step]
  have e1 : Hasher.sx 98 = 98 := by decide
  have e2 : Hasher.sx 48 = 48 := by decide
  have e3 : Hasher.sx 65 = 65 := by decide
  have e4 : Hasher.sx 97 = 97 := by decide
  have e5 : Hasher.sx 111 = 111 := by decide
  rw [e1, e2, e3, e4, e5]
  grind

theorem crowdKeys_hash (m : Nat) : ∀ k ∈ crowdKeys m, ∀ k' ∈ crowdKeys m, ∀ h : UInt32, sdbmFrom h k = sdbmFrom h k' := by
  induction m with
  | zero =>
    intro k hk k' hk' h
    simp only [crowdKeys, List.mem_singleton] at hk hk'
    rw [hk, hk']
  | succ m ih =>
    have key : ∀ k ∈ crowdKeys (m + 1), ∃ k0 ∈ crowdKeys m, ∀ h : UInt32, sdbmFrom h k = sdbmFrom (sdbmFrom h [98, 98, 98, 48]) k0 := by
      intro k hk
      simp only [crowdKeys, List.mem_append, List.mem_map] at hk
      rcases hk with ⟨k', hk', rfl⟩ | ⟨k', hk', rfl⟩
      · exact ⟨k', hk', fun h => sdbmFrom_append _ _ _⟩
      · refine ⟨k', hk', fun h => ?_⟩
        rw [word_same]
        exact sdbmFrom_append _ _ _
    intro k hk k' hk' h
    obtain ⟨k0, hk0, e0⟩ := key k hk
    obtain ⟨k1, hk1, e1⟩ := key k' hk'
    rw [e0, e1]
    exact ih k0 hk0 k1 hk1 _

theorem strBody_plain {k : Bytes} (h : ∀ c ∈ k, c ≠ 34 ∧ c ≠ 92) : StrBody k k := by
  induction k with
  | nil => exact .nil
  | cons c k ih => exact .raw (h c List.mem_cons_self).1 (h c List.mem_cons_self).2 (ih fun c hc => h c (List.mem_cons_of_mem _ hc))

theorem crowdMembers_text : ∀ (ks : List Bytes) (_ : ks ≠ []) (_ : ∀ k ∈ ks, ∀ c ∈ k, c ≠ 34 ∧ c ≠ 92),
    Members (crowdMembers ks) (ks.map fun k => (k, JV.int (wrap256 0))) := by
  have h0 : JText [48] (.int (wrap256 0)) := .int (.nonneg (n := 0) ⟨by simp, by simp [Digit], by simp, rfl⟩)
  have hw : WS [] := by simp [WS]
  intro ks
  induction ks with
  | nil => intro h; exact absurd rfl h
  | cons k ks ih =>
    intro _ hk
    have hb := strBody_plain (hk k List.mem_cons_self)
    cases ks with
    | nil => exact .one (w := []) (w1 := []) (w2 := []) (w3 := []) hw hb hw hw h0 hw
    | cons k' ks =>
      exact .cons (w := []) (w1 := []) (w2 := []) (w3 := []) hw hb hw hw h0 hw (ih (by simp) fun k hk' => hk k (List.mem_cons_of_mem _ hk'))

theorem crowdMembers_length (n : Nat) : ∀ (ks : List Bytes) (_ : ks ≠ []) (_ : ∀ k ∈ ks, k.length = n), (crowdMembers ks).length + 1 = ks.length * (n + 5) := by
  intro ks
  induction ks with
  | nil => intro h; exact absurd rfl h
  | cons k ks ih =>
    intro _ hk
    have hb := hk k List.mem_cons_self
    cases ks with
    | nil => simp only [crowdMembers, List.length_cons, List.length_append, List.length_nil, hb]; omega
    | cons k' ks =>
      have := ih (by simp) fun k hk' => hk k (List.mem_cons_of_mem _ hk')
      simp only [crowdMembers, List.length_cons, List.length_append, hb] at this ⊢
      rw [Nat.add_mul (ks.length + 1) 1, ← this]
      omega

end Eni.Json
