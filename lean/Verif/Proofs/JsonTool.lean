import Verif.Spec.Tokens
/-!
# Lemmas about token lists
-/
namespace Eni.JsonTool
open Spec

/-! ### positions -/

/-- One for strings: the quotes are not part of the token. -/
def quote (t : Tok) : Int := if t.kind = .string then 1 else 0

/-- `c` is a value inside the text `t` at `off`. -/
def Inside (off : Nat) (t : Bytes) (c : Child) : Prop := ∃ p s, t = p ++ (c.text ++ s) ∧ c.off = off + p.length

mutual
theorem tval_bounds {off : Nat} {t : Bytes} {top : Tok} {sub : List Tok} : TVal off t top sub →
    top.start - quote top = off ∧ top.stop + quote top = off + t.length ∧ top.start ≤ top.stop ∧ (∀ s ∈ sub, off < s.start ∧ s.start < top.stop) ∧
    0 < t.length
  | .str (b := b) _ => by
    refine ⟨?_, ?_, ?_, by simp, by simp⟩ <;> simp [quote] <;> omega
  | .prim h _ => by
    have := List.length_pos_of_ne_nil h
    refine ⟨by simp [quote], by simp [quote], by dsimp only; omega, by simp, this⟩
  | .arr (t := t) (cs := cs) h => by
    refine ⟨by simp [quote], ?_, ?_, ?_, by simp⟩
    · simp [quote]; omega
    · dsimp only; omega
    · intro s hs
      rw [List.mem_flatMap] at hs
      obtain ⟨c, hc, hs⟩ := hs
      have := telems_bounds h c hc s hs
      dsimp only
      omega
  | .obj (t := t) (ms := ms) h => by
    refine ⟨by simp [quote], ?_, ?_, ?_, by simp⟩
    · simp [quote]; omega
    · dsimp only; omega
    · intro s hs
      rw [List.mem_flatMap] at hs
      obtain ⟨m, hm, hs⟩ := hs
      have := tmembers_bounds h m hm s hs
      dsimp only
      omega
theorem telems_bounds {off : Nat} {t : Bytes} {cs : List Child} : TElems off t cs →
    ∀ c ∈ cs, ∀ s ∈ c.toks, off ≤ s.start ∧ s.start ≤ off + t.length
  | .none _ => by simp
  | .one (w := w) (t := t) (w' := w') (top := top) _ hv _ => by
    have hb := tval_bounds hv
    intro c hc s hs
    rw [List.mem_singleton] at hc
    subst hc
    have h1 : quote top = 0 ∨ quote top = 1 := by unfold quote; split <;> simp
    rcases List.mem_cons.mp hs with rfl | hs
    · simp only [List.length_append]
      push_cast at *
      omega
    · have := hb.2.2.2.1 s hs
      simp only [List.length_append]
      push_cast at *
      omega
  | .cons (w := w) (t := t) (w' := w') (top := top) (r := r) (c := c') (cs := cs') _ hv _ hr => by
    have hb := tval_bounds hv
    have ih := telems_bounds hr
    intro c hc s hs
    have h1 : quote top = 0 ∨ quote top = 1 := by unfold quote; split <;> simp
    rcases List.mem_cons.mp hc with rfl | hc
    · rcases List.mem_cons.mp hs with rfl | hs
      · simp only [List.length_append, List.length_cons]
        push_cast at *
        omega
      · have := hb.2.2.2.1 s hs
        simp only [List.length_append, List.length_cons]
        push_cast at *
        omega
    · have := ih c hc s hs
      simp only [List.length_append, List.length_cons]
      push_cast at *
      omega
theorem tmembers_bounds {off : Nat} {t : Bytes} {ms : List (Child × Child)} : TMembers off t ms →
    ∀ m ∈ ms, ∀ s ∈ m.1.toks ++ m.2.toks, off ≤ s.start ∧ s.start ≤ off + t.length
  | .none _ => by simp
  | .one (w := w) (b := b) (w1 := w1) (w2 := w2) (t := t) (w3 := w3) (top := top) _ _ _ _ hv _ => by
    have hb := tval_bounds hv
    intro m hm s hs
    rw [List.mem_singleton] at hm
    subst hm
    have h1 : quote top = 0 ∨ quote top = 1 := by unfold quote; split <;> simp
    rcases List.mem_append.mp hs with hs | hs
    · rcases List.mem_cons.mp hs with rfl | hs
      · simp only [List.length_append, List.length_cons]
        push_cast at *
        omega
      · simp at hs
    · rcases List.mem_cons.mp hs with rfl | hs
      · simp only [List.length_append, List.length_cons]
        push_cast at *
        omega
      · have := hb.2.2.2.1 s hs
        simp only [List.length_append, List.length_cons]
        push_cast at *
        omega
  | .cons (w := w) (b := b) (w1 := w1) (w2 := w2) (t := t) (w3 := w3) (top := top) (r := r) _ _ _ _ hv _ hr => by
    have hb := tval_bounds hv
    have ih := tmembers_bounds hr
    intro m hm s hs
    have h1 : quote top = 0 ∨ quote top = 1 := by unfold quote; split <;> simp
    rcases List.mem_cons.mp hm with rfl | hm
    · rcases List.mem_append.mp hs with hs | hs
      · rcases List.mem_cons.mp hs with rfl | hs
        · simp only [List.length_append, List.length_cons]
          push_cast at *
          omega
        · simp at hs
      · rcases List.mem_cons.mp hs with rfl | hs
        · simp only [List.length_append, List.length_cons]
          push_cast at *
          omega
        · have := hb.2.2.2.1 s hs
          simp only [List.length_append, List.length_cons]
          push_cast at *
          omega
    · have := ih m hm s hs
      simp only [List.length_append, List.length_cons]
      push_cast at *
      omega
end

theorem telems_inside {off : Nat} {t : Bytes} {cs : List Child} : TElems off t cs → ∀ c ∈ cs, Inside off t c ∧ TVal c.off c.text c.tok c.sub
  | .none _ => by simp
  | .one (w := w) (w' := w') _ hv _ => by
    intro c hc
    rw [List.mem_singleton] at hc
    subst hc
    exact ⟨⟨w, w', rfl, rfl⟩, hv⟩
  | .cons (w := w) (t := t) (w' := w') (r := r) _ hv _ hr => by
    have ih := telems_inside hr
    intro c hc
    rcases List.mem_cons.mp hc with rfl | hc
    · exact ⟨⟨w, w' ++ 44 :: r, rfl, rfl⟩, hv⟩
    · obtain ⟨⟨p, s, e, ho⟩, hv'⟩ := ih c hc
      refine ⟨⟨w ++ (t ++ (w' ++ 44 :: p)), s, ?_, ?_⟩, hv'⟩
      · rw [e]; simp
      · rw [ho]; simp; omega

theorem tmembers_inside {off : Nat} {t : Bytes} {ms : List (Child × Child)} : TMembers off t ms →
    ∀ m ∈ ms, Inside off t m.1 ∧ Inside off t m.2 ∧ TVal m.1.off m.1.text m.1.tok m.1.sub ∧ m.1.tok.kind = .string ∧ TVal m.2.off m.2.text m.2.tok m.2.sub
  | .none _ => by simp
  | .one (w := w) (b := b) (w1 := w1) (w2 := w2) (t := t) (w3 := w3) _ hb _ _ hv _ => by
    intro c hc
    rw [List.mem_singleton] at hc
    subst hc
    refine ⟨⟨w, w1 ++ 58 :: (w2 ++ (t ++ w3)), by simp, rfl⟩, ⟨w ++ 34 :: (b ++ 34 :: (w1 ++ 58 :: w2)), w3, by simp, ?_⟩, ?_, rfl, hv⟩
    · simp; omega
    · exact .str hb
  | .cons (w := w) (b := b) (w1 := w1) (w2 := w2) (t := t) (w3 := w3) (r := r) _ hb _ _ hv _ hr => by
    have ih := tmembers_inside hr
    intro c hc
    rcases List.mem_cons.mp hc with rfl | hc
    · refine ⟨⟨w, w1 ++ 58 :: (w2 ++ (t ++ (w3 ++ 44 :: r))), by simp, rfl⟩, ⟨w ++ 34 :: (b ++ 34 :: (w1 ++ 58 :: w2)), w3 ++ 44 :: r, by simp, ?_⟩, ?_, rfl, hv⟩
      · simp; omega
      · exact .str hb
    · obtain ⟨⟨p, s, e, ho⟩, ⟨p', s', e', ho'⟩, h⟩ := ih c hc
      refine ⟨⟨w ++ 34 :: (b ++ 34 :: (w1 ++ 58 :: (w2 ++ (t ++ (w3 ++ 44 :: p))))), s, ?_, ?_⟩,
        ⟨w ++ 34 :: (b ++ 34 :: (w1 ++ 58 :: (w2 ++ (t ++ (w3 ++ 44 :: p'))))), s', ?_, ?_⟩, h⟩
      · rw [e]; simp
      · rw [ho]; simp; omega
      · rw [e']; simp
      · rw [ho']; simp; omega

theorem at_inside {data : Bytes} {off : Nat} {t : Bytes} (h : At data off t) {c : Child} (hc : Inside off t c) :
    At data c.off c.text ∧ c.off + c.text.length ≤ off + t.length := by
  obtain ⟨p, s, e, ho⟩ := hc
  unfold At at *
  constructor
  · have h1 : (data.drop off).take t.length = t := h
    have h2 : ((data.drop off).take t.length).drop p.length = c.text ++ s := by rw [h1, e]; simp
    rw [List.drop_take, List.drop_drop, ← ho] at h2
    have h3 := congrArg (List.take c.text.length) h2
    rw [List.take_take, List.take_left' rfl] at h3
    rwa [Nat.min_eq_left (by rw [e]; simp)] at h3
  · rw [ho, e]; simp; omega

/-! ### loops -/

theorem arrayLoop_skip (before after : Int) (sub rest : List Tok) (h : ∀ s ∈ sub, s.start < after) :
    arrayLoop before after (sub ++ rest) = arrayLoop before after rest := by
  induction sub with
  | nil => rfl
  | cons s sub ih => rw [List.cons_append, arrayLoop, if_pos (h s (by simp)), ih fun x hx => h x (by simp [hx])]

theorem arrayLoop_child {before after : Int} {off : Nat} {t : Bytes} {top : Tok} {sub : List Tok} (hv : TVal off t top sub) (rest : List Tok)
    (ha : after ≤ off) (hb : (off : Int) + t.length ≤ before) :
    arrayLoop before after (top :: (sub ++ rest)) = top :: arrayLoop before top.stop rest ∧ top.stop ≤ (off : Int) + t.length := by
  obtain ⟨h1, h2, h3, h4, _⟩ := tval_bounds hv
  have h5 : quote top = 0 ∨ quote top = 1 := by unfold quote; split <;> simp
  refine ⟨?_, by omega⟩
  rw [arrayLoop, if_neg (by omega), if_neg (by omega), arrayLoop_skip _ _ _ _ fun s hs => (h4 s hs).2]

theorem arrayLoop_elems {off : Nat} {t : Bytes} {cs : List Child} : TElems off t cs → ∀ (before after : Int), after ≤ off → (off : Int) + t.length ≤ before →
    arrayLoop before after (cs.flatMap Child.toks) = cs.map Child.tok
  | .none _ => fun _ _ _ _ => rfl
  | .one (w := w) (t := t) (w' := w') (top := top) (sub := sub) _ hv _ => by
    intro before after ha hb
    simp only [List.length_append] at hb
    have := arrayLoop_child (before := before) (after := after) hv [] (by push_cast at *; omega) (by push_cast at *; omega)
    simp only [List.append_nil] at this
    simp [Child.toks, this.1, arrayLoop]
  | .cons (w := w) (t := t) (w' := w') (top := top) (sub := sub) (r := r) (c := c) (cs := cs) _ hv _ hr => by
    intro before after ha hb
    simp only [List.length_append, List.length_cons] at hb
    obtain ⟨e, hs⟩ := arrayLoop_child (before := before) (after := after) hv ((c :: cs).flatMap Child.toks) (by push_cast at *; omega)
      (by push_cast at *; omega)
    have ih := arrayLoop_elems hr before top.stop (by push_cast at *; omega) (by push_cast at *; omega)
    rw [List.flatMap_cons, Child.toks, List.cons_append, e, ih]
    rfl

theorem objectLoop_skip (E : Env) (data : Bytes) (before after : Int) (k : Option Tok) (m : List (Bytes × Tok)) (sub rest : List Tok)
    (h : ∀ s ∈ sub, s.start < after) : objectLoop E data before after k m (sub ++ rest) = objectLoop E data before after k m rest := by
  induction sub with
  | nil => rfl
  | cons s sub ih => cases k <;> rw [List.cons_append, objectLoop, if_pos (h s (by simp)), ih fun x hx => h x (by simp [hx])]

/-- One member. -/
theorem objectLoop_member {E : Env} {data : Bytes} {before after : Int} {kt : Tok} {vo : Nat} {t : Bytes} {top : Tok} {sub : List Tok} {name : Bytes}
    (hk : getKey E data kt = .ok name) (hv : TVal vo t top sub) (rest : List Tok) (m : List (Bytes × Tok)) (ha : after ≤ kt.start)
    (hb : kt.start ≤ before) (hc : kt.stop ≤ vo) (hd : (vo : Int) + t.length ≤ before) :
    objectLoop E data before after none m (kt :: top :: (sub ++ rest)) = objectLoop E data before top.stop none ((name, top) :: m) rest ∧
      top.stop ≤ (vo : Int) + t.length := by
  obtain ⟨h1, h2, h3, h4, _⟩ := tval_bounds hv
  have h5 : quote top = 0 ∨ quote top = 1 := by unfold quote; split <;> simp
  refine ⟨?_, by omega⟩
  rw [objectLoop, if_neg (by omega), if_neg (by omega)]
  rw [objectLoop, if_neg (by omega), if_neg (by omega)]
  simp only [hk, Res.ok_bind]
  rw [objectLoop_skip _ _ _ _ _ _ _ _ fun s hs => (h4 s hs).2]

theorem objectLoop_members {E : Env} {data : Bytes} (name : Child → Bytes) {off : Nat} {t : Bytes} {ms : List (Child × Child)} : TMembers off t ms →
    (∀ m ∈ ms, getKey E data m.1.tok = .ok (name m.1)) → ∀ (before after : Int) (acc : List (Bytes × Tok)), after ≤ off → (off : Int) + t.length ≤ before →
    objectLoop E data before after none acc (ms.flatMap fun m => m.1.toks ++ m.2.toks) = .ok ((ms.map fun m => (name m.1, m.2.tok)).reverse ++ acc)
  | .none _ => fun _ _ _ _ _ _ => rfl
  | .one (w := w) (b := b) (w1 := w1) (w2 := w2) (t := t) (w3 := w3) (top := top) (sub := sub) _ _ _ _ hv _ => by
    intro hk before after acc ha hb
    simp only [List.length_append, List.length_cons] at hb
    have := objectLoop_member (before := before) (after := after) (hk _ List.mem_cons_self) hv [] acc (by push_cast at *; omega)
      (by push_cast at *; omega) (by push_cast at *; omega) (by push_cast at *; omega)
    simp only [List.append_nil] at this
    simp [Child.toks, this.1, objectLoop]
  | .cons (w := w) (b := b) (w1 := w1) (w2 := w2) (t := t) (w3 := w3) (top := top) (sub := sub) (r := r) (m := m) (ms := ms) _ _ _ _ hv _ hr => by
    intro hk before after acc ha hb
    simp only [List.length_append, List.length_cons] at hb
    obtain ⟨e, hs⟩ := objectLoop_member (before := before) (after := after) (hk _ List.mem_cons_self) hv ((m :: ms).flatMap fun m => m.1.toks ++ m.2.toks) acc
      (by push_cast at *; omega) (by push_cast at *; omega) (by push_cast at *; omega) (by push_cast at *; omega)
    have ih := objectLoop_members name hr (fun m' hm' => hk m' (List.mem_cons_of_mem _ hm')) before top.stop
    rw [List.flatMap_cons]
    simp only [Child.toks, List.cons_append, List.nil_append] at e ⊢
    rw [e]
    simp only [Child.toks, List.cons_append] at ih
    rw [ih _ (by push_cast at *; omega) (by push_cast at *; omega)]
    simp

/-! ### encoding -/

theorem hexDig_ok : ∀ d < 16, hexOf (hexDig d) = some d ∧ ((48 ≤ hexDig d ∧ hexDig d ≤ 57) ∨ (97 ≤ hexDig d ∧ hexDig d ≤ 102)) := by decide +kernel

theorem hex8_spec (z : Int) : (hex8 z).length = 8 ∧ (∀ c ∈ hex8 z, (48 ≤ c ∧ c ≤ 57) ∨ (97 ≤ c ∧ c ≤ 102)) ∧
    (((hex8 z).foldl (fun n c => 16 * n + (hexOf c).getD 0) 0 : Nat) : Int) = z % 4294967296 := by
  refine ⟨rfl, ?_, ?_⟩
  · intro c hc
    simp only [hex8, List.mem_cons, List.not_mem_nil, or_false] at hc
    rcases hc with rfl | rfl | rfl | rfl | rfl | rfl | rfl | rfl <;> exact (hexDig_ok _ (Nat.mod_lt _ (by omega))).2
  · have h : ∀ n : Nat, (hexOf (hexDig (n % 16))).getD 0 = n % 16 := fun n => by rw [(hexDig_ok _ (Nat.mod_lt n (by omega))).1]; rfl
    simp only [hex8, List.foldl_cons, List.foldl_nil, h]
    have : 0 ≤ z % 4294967296 := Int.emod_nonneg _ (by omega)
    omega

theorem encodeToken_spec {t : Tok} {a b : Nat} (ha : t.start - quote t = a) (hb : t.stop + quote t = b) (h1 : a < 2147483648) (h2 : b < 2147483648) :
    ∃ x, encodeToken t = .ok x ∧ RangeCode a b x := by
  have hq : (if t.kind = .string then (1 : Int) else 0) = quote t := rfl
  refine ⟨hex8 a ++ hex8 b, ?_, ?_, ?_, ?_, ?_⟩
  · simp only [encodeToken, hq, ha, hb]
    rw [int32, if_pos (by omega), Res.ok_bind, int32, if_pos (by omega)]
    rfl
  · rfl
  · intro c hc
    rcases List.mem_append.mp hc with h | h
    · exact (hex8_spec _).2.1 c h
    · exact (hex8_spec _).2.1 c h
  · rw [show List.take 8 (hex8 a ++ hex8 b) = hex8 a from List.take_left' (l₁ := hex8 a) rfl]
    have := (hex8_spec a).2.2
    omega
  · rw [show List.drop 8 (hex8 a ++ hex8 b) = hex8 b from List.drop_left' (l₁ := hex8 a) rfl]
    have := (hex8_spec b).2.2
    omega

/-! ### texts of the ENI grammar have token lists -/

theorem strBody_raw {b s : Bytes} (h : StrBody b s) : RawBody b := by
  have hx : ∀ {c : UInt8} {n}, hexOf c = some n → c ≠ 34 ∧ c ≠ 92 := by
    intro c n h
    constructor <;> (rintro rfl; revert h; simp [hexOf])
  induction h with
  | nil => exact .nil
  | raw h1 h2 _ ih => exact .raw h1 h2 ih
  | esc _ _ ih => exact .esc ih
  | uni a1 a2 a3 a4 _ ih =>
    exact .esc (.raw (hx a1).1 (hx a1).2 (.raw (hx a2).1 (hx a2).2 (.raw (hx a3).1 (hx a3).2 (.raw (hx a4).1 (hx a4).2 ih))))

theorem natText_prim {t : Bytes} {n : Nat} (h : NatText t n) : t ≠ [] ∧ ∀ c ∈ t, PrimChar c :=
  ⟨h.1, fun c hc => .inl (by have := h.2.1 c hc; exact ⟨UInt8.le_iff_toNat_le.mpr this.1, UInt8.le_iff_toNat_le.mpr this.2⟩)⟩

/-- The members of an object and the pairs of texts. -/
def MemberOf (m : Child × Child) (kj : Bytes × JV) : Prop := ∃ b, m.1.text = 34 :: (b ++ [34]) ∧ StrBody b kj.1 ∧ JText m.2.text kj.2

mutual
theorem jtext_tokens {t : Bytes} {j : JV} : JText t j → ∀ off, ∃ top sub, TVal off t top sub
  | .true_ => fun off => ⟨_, _, .prim (by simp) (by decide)⟩
  | .false_ => fun off => ⟨_, _, .prim (by simp) (by decide)⟩
  | .int (t := t) h => fun off => by
    cases h with
    | nonneg h => exact ⟨_, _, .prim (natText_prim h).1 (natText_prim h).2⟩
    | neg h => exact ⟨_, _, .prim (by simp) (fun c hc => by
        rcases List.mem_cons.mp hc with rfl | hc
        · unfold PrimChar; decide
        · exact (natText_prim h).2 c hc)⟩
  | .str h => fun off => ⟨_, _, .str (strBody_raw h)⟩
  | .arrNil h => fun off => ⟨_, _, .arr (.none h)⟩
  | .arr h => fun off => by
    obtain ⟨cs, hc, _⟩ := elems_tokens h (off + 1)
    exact ⟨_, _, .arr hc⟩
  | .objNil h => fun off => ⟨_, _, .obj (.none h)⟩
  | .obj h => fun off => by
    obtain ⟨ms, hm, _⟩ := members_tokens h (off + 1)
    exact ⟨_, _, .obj hm⟩
theorem elems_tokens {t : Bytes} {js : List JV} : Elems t js → ∀ off, ∃ cs, TElems off t cs ∧ List.Forall₂ (fun c j => JText c.text j) cs js ∧ cs ≠ []
  | .one (w := w) hw ht hw' => fun off => by
    obtain ⟨top, sub, hv⟩ := jtext_tokens ht (off + w.length)
    exact ⟨_, .one hw hv hw', .cons ht .nil, by simp⟩
  | .cons (w := w) (t := t) (w' := w') hw ht hw' hr => fun off => by
    obtain ⟨top, sub, hv⟩ := jtext_tokens ht (off + w.length)
    obtain ⟨cs, hc, hf, hne⟩ := elems_tokens hr (off + w.length + t.length + w'.length + 1)
    match cs, hne with
    | c :: cs, _ => exact ⟨_, .cons hw hv hw' hc, .cons ht hf, by simp⟩
theorem members_tokens {t : Bytes} {kjs : List (Bytes × JV)} : Members t kjs → ∀ off, ∃ ms, TMembers off t ms ∧ List.Forall₂ MemberOf ms kjs ∧ ms ≠ []
  | .one (w := w) (b := b) (w1 := w1) (w2 := w2) hw hb hw1 hw2 ht hw3 => fun off => by
    obtain ⟨top, sub, hv⟩ := jtext_tokens ht (off + w.length + b.length + 2 + w1.length + 1 + w2.length)
    exact ⟨_, .one hw (strBody_raw hb) hw1 hw2 hv hw3, .cons ⟨b, rfl, hb, ht⟩ .nil, by simp⟩
  | .cons (w := w) (b := b) (w1 := w1) (w2 := w2) (t := t) (w3 := w3) hw hb hw1 hw2 ht hw3 hr => fun off => by
    obtain ⟨top, sub, hv⟩ := jtext_tokens ht (off + w.length + b.length + 2 + w1.length + 1 + w2.length)
    obtain ⟨ms, hm, hf, hne⟩ := members_tokens hr (off + w.length + b.length + 2 + w1.length + 1 + w2.length + t.length + w3.length + 1)
    match ms, hne with
    | m :: ms, _ => exact ⟨_, .cons hw (strBody_raw hb) hw1 hw2 hv hw3 hm, .cons ⟨b, rfl, hb, ht⟩ hf, by simp⟩
end

end Eni.JsonTool
