import Verif.Model.CharSign
import Verif.Spec.CharSign
import Verif.Proofs.StringMap
import Verif.Proofs.HashWeak
import Verif.Proofs.HashLoop
import Verif.Proofs.JsonParse
import Verif.Proofs.ScryptOp
/-! # Proofs about either kind of `char` -/
namespace Eni.Plat
open Spec

/-! ### Single characters -/

theorem forall_ch {p : Ch → Prop} (h1 : p .signed) (h2 : p .unsigned) (c : Ch) : p c := by cases c <;> assumption

theorem toU32_signed : ∀ c, toU32 (Ch.val .signed c) = Hasher.sx c := Scrypt.forall_byte (by decide +kernel)
theorem val_ascii (ch : Ch) : ∀ c : UInt8, c.toNat < 128 → ch.val c = c.toNat := by
  revert ch
  exact forall_ch (Scrypt.forall_byte (by decide +kernel)) (Scrypt.forall_byte (by decide +kernel))
theorem isDigit_eq (ch : Ch) : ∀ c, isDigit ch c = Json.isDigit c := by
  revert ch
  exact forall_ch (Scrypt.forall_byte (by decide +kernel)) (Scrypt.forall_byte (by decide +kernel))
theorem isPosDigit_eq (ch : Ch) : ∀ c, isPosDigit ch c = Json.isPosDigit c := by
  revert ch
  exact forall_ch (Scrypt.forall_byte (by decide +kernel)) (Scrypt.forall_byte (by decide +kernel))
theorem isHexCode_eq (ch : Ch) : ∀ c, isHexCode ch c = Json.isHex c := by
  revert ch
  exact forall_ch (Scrypt.forall_byte (by decide +kernel)) (Scrypt.forall_byte (by decide +kernel))
theorem printChar_eq (ch : Ch) : ∀ c, printChar ch c = Value.printChar c := by
  revert ch
  exact forall_ch (Scrypt.forall_byte (by decide +kernel)) (Scrypt.forall_byte (by decide +kernel))
theorem nibble_signed : ∀ c, nibble .signed c = Scrypt.nibble c := Scrypt.forall_byte (by decide +kernel)
theorem h2d_signed : ∀ c, toByte (h2d .signed c) = Crypto.h2d c := Scrypt.forall_byte (by decide +kernel)
theorem nibble_hex (ch : Ch) : ∀ c, Scrypt.isHex c = true → nibble ch (Scrypt.tolower c) = Scrypt.nibble (Scrypt.tolower c) := by
  revert ch
  exact forall_ch (Scrypt.forall_byte (by decide +kernel)) (Scrypt.forall_byte (by decide +kernel))

theorem codeByte_eq (n : Nat) : codeByte n = n.toUInt8 := by
  unfold codeByte toByte
  apply UInt8.toNat_inj.mp
  simp only [Nat.toUInt8_eq, UInt8.toNat_ofNat']
  omega

theorem toByte_add (a b : Int) : toByte (a + b) = toByte a + toByte b := by
  unfold toByte
  apply UInt8.toNat_inj.mp
  simp only [Nat.toUInt8_eq, UInt8.toNat_ofNat', UInt8.toNat_add]
  omega

theorem toByte_mul16 (a : Int) : toByte (a * 16) = toByte a * 16 := by
  unfold toByte
  apply UInt8.toNat_inj.mp
  simp only [Nat.toUInt8_eq, UInt8.toNat_ofNat', UInt8.toNat_mul]
  have : (16 : UInt8).toNat = 16 := rfl
  rw [this]
  omega

theorem hex2digit_signed (a b : UInt8) : hex2digit .signed a b = Crypto.hex2digit a b := by
  unfold hex2digit Crypto.hex2digit
  rw [toByte_add, toByte_mul16, h2d_signed, h2d_signed]

theorem h2d_ascii (ch ch' : Ch) {c : UInt8} (h : c.toNat < 128) : h2d ch c = h2d ch' c := by
  unfold h2d; rw [val_ascii ch c h, val_ascii ch' c h]

theorem hexLoop_ascii (ch ch' : Ch) : ∀ (n : Nat) (s acc : Bytes), s.length ≤ n → Ascii s → hexLoop ch s acc = hexLoop ch' s acc
  | _, [], _, _, _ => rfl
  | _, [_], _, _, _ => rfl
  | 0, a :: b :: r, _, hn, _ => absurd hn (by simp)
  | n + 1, a :: b :: r, acc, hn, h => by
    simp only [hexLoop]
    have e : hex2digit ch a b = hex2digit ch' a b := by
      unfold hex2digit
      rw [h2d_ascii ch ch' (h a (by simp)), h2d_ascii ch ch' (h b (by simp))]
    rw [e]
    exact hexLoop_ascii ch ch' n r _ (by simp at hn; omega) (fun c hc => h c (by simp [hc]))

theorem hex2str_ascii (ch ch' : Ch) {s : Bytes} (h : Ascii s) : hex2str ch s = hex2str ch' s := by
  unfold hex2str; rw [hexLoop_ascii ch ch' _ s [] (Nat.le_refl _) h]

theorem hexLoop_signed : ∀ (n : Nat) (s acc : Bytes), s.length ≤ n → hexLoop .signed s acc = Crypto.hexLoop s acc
  | _, [], _, _ => rfl
  | _, [_], _, _ => rfl
  | 0, a :: b :: r, _, hn => absurd hn (by simp)
  | n + 1, a :: b :: r, acc, hn => by
    simp only [hexLoop, Crypto.hexLoop, hex2digit_signed]
    exact hexLoop_signed n r _ (by simp at hn; omega)

theorem hex2str_signed (s : Bytes) : hex2str .signed s = Crypto.hex2str s := by
  unfold hex2str Crypto.hex2str; rw [hexLoop_signed _ s [] (Nat.le_refl _)]

/-! ### Hash functions -/

theorem round_signed (fn : Hasher.Fn) (i : UInt32) (st : Hasher.Loc) (c : UInt8) :
    round fn i st (toU32 (Ch.val .signed c)) = Hasher.body fn i st c := by
  rw [toU32_signed]; cases fn <;> rfl

theorem returns_signed (fn : Hasher.Fn) (s : Bytes) (v : UInt32) : Returns .signed fn s v ↔ Hasher.Returns fn s v := by
  have : (fun i st c => round fn i st (toU32 (Ch.val .signed c))) = Hasher.body fn := by funext i st c; exact round_signed fn i st c
  unfold Returns Hasher.Returns; rw [this]

theorem loop_congr {f g : UInt32 → Hasher.Loc → UInt8 → Hasher.Loc} {s : Bytes} (h : ∀ i st, ∀ c ∈ s, f i st c = g i st c) {i : UInt32} {st r : Hasher.Loc}
    (H : Hasher.Loop f s i st r) : Hasher.Loop g s i st r := by
  induction H with
  | done hi => exact .done hi
  | next hi hc _ ih => rw [h _ _ _ (List.mem_of_getElem? hc)] at ih; exact .next hi hc ih

theorem returns_ascii (c d : Ch) (fn : Hasher.Fn) {s : Bytes} (h : Ascii s) {v : UInt32} (hv : Returns c fn s v) : Returns d fn s v := by
  obtain ⟨r, H, hr⟩ := hv
  exact ⟨r, loop_congr (fun i st x hx => by rw [val_ascii c x (h x hx), val_ascii d x (h x hx)]) H, hr⟩

theorem foldl_congr' {α β : Type} {f g : α → β → α} : ∀ (l : List β) (a : α), (∀ a, ∀ b ∈ l, f a b = g a b) → l.foldl f a = l.foldl g a
  | [], _, _ => rfl
  | b :: l, a, h => by
    simp only [List.foldl_cons]
    rw [h a b (by simp)]
    exact foldl_congr' l _ (fun a b hb => h a b (by simp [hb]))

theorem sdbm_signed (s : Bytes) : sdbm .signed s = Hasher.sdbm s := by
  unfold sdbm Hasher.sdbm
  exact foldl_congr' s 0 (fun a x _ => by rw [toU32_signed])

theorem sdbm_ascii (c d : Ch) {s : Bytes} (h : Ascii s) : sdbm c s = sdbm d s := by
  unfold sdbm
  exact foldl_congr' s 0 (fun a x hx => by rw [val_ascii c x (h x hx), val_ascii d x (h x hx)])

theorem esStep_ascii (c d : Ch) (st : UInt32 × UInt32) {x : UInt8} (h : x.toNat < 128) : esStep c st x = esStep d st x := by
  unfold esStep; rw [val_ascii c x h, val_ascii d x h]

theorem esLoop_ascii (c d : Ch) : ∀ (s : Bytes) (st : UInt32 × UInt32), Ascii s → esLoop c st s = esLoop d st s
  | [], _, _ => rfl
  | x :: s, st, h => by
    simp only [esLoop]
    rw [esStep_ascii c d st (h x (by simp))]
    cases esStep d st x with
    | none => rfl
    | some st' => exact esLoop_ascii c d s st' (fun y hy => h y (by simp [hy]))

/-! ### Everything is as in the other models if `char` is signed -/

theorem sdbm_signed' : sdbm .signed = Hasher.sdbm := funext sdbm_signed

theorem assign_signed {V : Type} (m : SMap V) (k : Bytes) (v : V) : assign .signed m k v = SMap.assign m k v := by
  unfold assign insert SMap.assign SMap.insert; rw [sdbm_signed']; rfl

theorem setParent_signed (cb : Json.CbState) (v : Value) : setParent .signed cb v = Json.setParent cb v := by
  obtain ⟨st, root⟩ := cb
  unfold setParent Json.setParent
  simp only [assign_signed]
  rcases st with _ | ⟨⟨x, k⟩, rest⟩
  · rfl
  · cases x <;> rfl

theorem cbStep_signed (cb : Json.CbState) (e : Json.Ev) : cbStep .signed cb e = Json.cbStep cb e := by
  obtain ⟨st, root⟩ := cb
  cases e with
  | string s k => cases k <;> simp only [cbStep, Json.cbStep, setParent_signed] <;> cases st <;> rfl
  | beginArray => rfl
  | beginObject => rfl
  | _ => simp only [cbStep, Json.cbStep, setParent_signed] <;> cases st <;> rfl

theorem cbRun_signed : ∀ (es : List Json.Ev) (cb : Json.CbState), cbRun .signed cb es = Json.cbRun cb es
  | [], _ => rfl
  | e :: es, cb => by
    simp only [cbRun, Json.cbRun, cbStep_signed]
    cases Json.cbStep cb e <;> simp [cbRun_signed es]

theorem parse_signed (L : Json.Layout) (s : Bytes) : parse .signed L s = Json.parse L s := by
  unfold parse Json.parse
  simp only [cbRun_signed]
  generalize Json.parseValue L (s.length + 1) ⟨s, []⟩ = x
  cases x <;> rfl

/-! ### Keys that both kinds hash alike -/

theorem insertE_hash {E K : Type} [DecidableEq K] {f g : K → UInt32} {keyOf : E → Option K} (t : Table E) {k : K} (h : f k = g k) (e : E) :
    Table.insertE f keyOf t k e = Table.insertE g keyOf t k e := by
  unfold Table.insertE Table.lookupBucketFor; rw [h]

theorem assign_ascii (c d : Ch) {V : Type} (m : SMap V) {k : Bytes} (h : Ascii k) (v : V) : assign c m k v = assign d m k v := by
  unfold assign insert; rw [insertE_hash m (sdbm_ascii c d h)]

/-- the keys under which members will be stored are ASCII -/
def AsciiStack (cb : Json.CbState) : Prop := ∀ p ∈ cb.stack, Ascii p.2

theorem ascii_nil : Ascii [] := by simp [Ascii]

theorem setParent_ascii (c d : Ch) {cb : Json.CbState} (h : AsciiStack cb) (v : Value) : setParent c cb v = setParent d cb v := by
  unfold setParent
  split
  · rfl
  · rename_i m key rest he
    rw [assign_ascii c d m (h (.obj m, key) (by rw [he]; simp))]
  · rfl
  · rfl

theorem setParent_stack (c : Ch) {cb cb' : Json.CbState} (h : AsciiStack cb) {v : Value} (hr : setParent c cb v = .ok cb') : AsciiStack cb' := by
  unfold setParent at hr
  split at hr
  · cases hr; exact h
  · rename_i m key rest he
    obtain ⟨⟨m', b⟩, _, h2⟩ := Res.bind_eq_ok.mp hr
    cases h2
    intro p hp
    rcases List.mem_cons.mp hp with rfl | hp
    · exact h (.obj m, key) (by rw [he]; simp)
    · exact h p (by rw [he]; simp [hp])
  · rename_i vs key rest he
    cases hr
    intro p hp
    rcases List.mem_cons.mp hp with rfl | hp
    · exact h (.arr vs, key) (by rw [he]; simp)
    · exact h p (by rw [he]; simp [hp])
  · cases hr; exact h

/-- the keys among the callback invocations are ASCII -/
def AsciiEvs (es : List Json.Ev) : Prop := ∀ k, Json.Ev.string k true ∈ es → Ascii k

theorem cbStep_ascii (c d : Ch) {cb : Json.CbState} (h : AsciiStack cb) (e : Json.Ev) (he : ∀ k, e = .string k true → Ascii k) :
    cbStep c cb e = cbStep d cb e ∧ ∀ cb', cbStep c cb e = .ok cb' → AsciiStack cb' := by
  have sub : ∀ p rest, cb.stack = p :: rest → AsciiStack { cb with stack := rest } := fun p rest e q hq => h q (by rw [e]; simp [hq])
  have push : ∀ v, AsciiStack { cb with stack := (v, []) :: cb.stack } := fun v q hq => by
    rcases List.mem_cons.mp hq with rfl | hq
    · exact ascii_nil
    · exact h q hq
  have set : ∀ v, setParent c cb v = setParent d cb v ∧ ∀ cb', setParent c cb v = .ok cb' → AsciiStack cb' :=
    fun v => ⟨setParent_ascii c d h v, fun cb' hr => setParent_stack c h hr⟩
  cases e with
  | boolean b => exact set _
  | number s => exact set _
  | string s k =>
    cases k with
    | false => exact set _
    | true =>
      simp only [cbStep, true_and]
      intro cb' hr
      split at hr
      · cases hr
      · rename_i v x rest hst
        cases hr
        intro q hq
        rcases List.mem_cons.mp hq with rfl | hq
        · exact he s rfl
        · exact h q (by rw [hst]; simp [hq])
  | beginArray => exact ⟨rfl, fun cb' hr => by cases hr; exact push _⟩
  | beginObject => exact ⟨rfl, fun cb' hr => by cases hr; exact push _⟩
  | endArray =>
    simp only [cbStep]
    split
    · exact ⟨rfl, fun cb' hr => by cases hr⟩
    · rename_i v x rest hst
      exact ⟨setParent_ascii c d (sub _ _ hst) _, fun cb' hr => setParent_stack c (sub _ _ hst) hr⟩
  | endObject =>
    simp only [cbStep]
    split
    · exact ⟨rfl, fun cb' hr => by cases hr⟩
    · rename_i v x rest hst
      exact ⟨setParent_ascii c d (sub _ _ hst) _, fun cb' hr => setParent_stack c (sub _ _ hst) hr⟩

theorem cbRun_ascii (c d : Ch) : ∀ (es : List Json.Ev) (cb : Json.CbState), AsciiStack cb → AsciiEvs es → cbRun c cb es = cbRun d cb es
  | [], _, _, _ => rfl
  | e :: es, cb, h, he => by
    obtain ⟨h1, h2⟩ := cbStep_ascii c d h e (fun k hk => he k (by simp [hk]))
    simp only [cbRun]
    rw [← h1]
    cases hr : cbStep c cb e with
    | ok cb' =>
      simp only [Res.ok_bind]
      exact cbRun_ascii c d es cb' (h2 cb' hr) (fun k hk => he k (by simp [hk]))
    | _ => simp only [Res.throw_bind, Res.ub_bind, Res.diverge_bind, Res.exit_bind]

open Json in
theorem evOf_ascii {es : List Ev} {j : JV} (h : EvOf es j) : AsciiKeys j → AsciiEvs es := by
  refine EvOf.rec (motive_1 := fun es j _ => AsciiKeys j → AsciiEvs es)
    (motive_2 := fun es js _ => (∀ j ∈ js, AsciiKeys j) → AsciiEvs es)
    (motive_3 := fun es ms _ => (∀ k j, (k, j) ∈ ms → Ascii k ∧ AsciiKeys j) → AsciiEvs es) ?_ ?_ ?_ ?_ ?_ ?_ ?_ ?_ ?_ h
  · intro b _ k hk; simp at hk
  · intro t z _ _ k hk; simp at hk
  · intro s _ k hk; simp at hk
  · intro es js _ ih hj k hk
    cases hj with
    | arr hj => exact ih hj k (by simpa using hk)
  · intro es ms _ ih hj k hk
    cases hj with
    | obj h1 h2 => exact ih (fun k j hm => ⟨h1 k j hm, h2 k j hm⟩) k (by simpa using hk)
  · intro _ k hk; simp at hk
  · intro es js e j _ _ ih1 ih2 hj k hk
    rcases List.mem_append.mp hk with hk | hk
    · exact ih1 (hj j (by simp)) k hk
    · exact ih2 (fun x hx => hj x (by simp [hx])) k hk
  · intro _ k hk; simp at hk
  · intro es ms key e j _ _ ih1 ih2 hj k hk
    rcases List.mem_cons.mp hk with hk | hk
    · cases hk; exact (hj key j (by simp)).1
    · rcases List.mem_append.mp hk with hk | hk
      · exact ih1 (hj key j (by simp)).2 k hk
      · exact ih2 (fun k' x hx => hj k' x (by simp [hx])) k hk

/-! ### The same texts are accepted -/

/-- the kind of a value, and the characters of a string -/
def tag : Value → Nat × Bytes
  | .undef => (0, [])
  | .int _ => (1, [])
  | .bool _ => (2, [])
  | .str s => (3, s)
  | .arr _ => (4, [])
  | .obj _ => (5, [])

theorem tag_copyTop (v : Value) : tag (Json.copyTop v) = tag v := by cases v <;> rfl

/-- a table with at most `n` members -/
def Fits (n : Nat) (v : Value) : Prop := ∀ m, v = .obj m → Table.Counted m ∧ m.ne ≤ n

theorem Fits.mono {n n' : Nat} {v : Value} (h : Fits n v) (hn : n ≤ n') : Fits n' v := fun m e => ⟨(h m e).1, Nat.le_trans (h m e).2 hn⟩

structure Shape (n : Nat) (a b : Json.CbState) : Prop where
  tags : a.stack.map (fun p => tag p.1) = b.stack.map (fun p => tag p.1)
  root : tag a.root = tag b.root
  fa : ∀ p ∈ a.stack, Fits n p.1
  fb : ∀ p ∈ b.stack, Fits n p.1

theorem assign_ctd (c : Ch) {V : Type} {t : SMap V} (C : Table.Counted t) (hne : t.ne < 1073643498) (k : Bytes) (v : V) :
    ∃ t' b, assign c t k v = .ok (t', b) ∧ Table.Counted t' ∧ t'.ne ≤ t.ne + 1 := by
  rcases Table.insertE_counted (hash := sdbm c) (keyOf := SEntry.keyO) C (fun e => ⟨_, rfl⟩) hne k (SEntry.mk' k v) with
    ⟨i, b, e, h, hi, hs⟩ | ⟨i, t', h, C', hp⟩
  · obtain ⟨bh, bs⟩ := b
    simp only at hs
    subst hs
    have hp := Table.ents_set (b' := ⟨bh, .full { e with val := v }⟩) hi
    have hl : (Table.ents (t.buckets.set i ⟨bh, .full { e with val := v }⟩)).length = (Table.ents t.buckets).length := by
      have := hp.length_eq; simp [Table.slotEntry] at this; omega
    have ht := Table.tmb_set (b' := ⟨bh, .full { e with val := v }⟩) hi
    refine ⟨{ t with buckets := t.buckets.set i ⟨bh, .full { e with val := v }⟩ }, true, by simp [assign, insert, h, hi],
      ⟨C.init, by simpa using C.len, ?_, ?_, C.room, C.small⟩, by simp⟩
    · have := C.ne_eq
      simp only [Table.entries_eq] at this ⊢
      omega
    · have := C.nt_eq
      simp only [Table.tombs_eq] at this ⊢
      simp [Table.isTomb] at ht
      omega
  · refine ⟨t', false, by simp [assign, insert, h], C', ?_⟩
    have := hp.length_eq
    rw [C'.ne_eq, C.ne_eq]
    simp at this
    omega

theorem setParent_shape (c d : Ch) {n : Nat} (hn : n < 1073643498) {a b : Json.CbState} (S : Shape n a b) {v w : Value} (hvw : tag v = tag w) :
    ∃ a' b', setParent c a v = .ok a' ∧ setParent d b w = .ok b' ∧ Shape (n + 1) a' b' := by
  obtain ⟨sa, ra⟩ := a
  obtain ⟨sb, rb⟩ := b
  obtain ⟨htags, hroot, fa, fb⟩ := S
  simp only at htags hroot fa fb
  cases sa with
  | nil =>
    cases sb with
    | nil => exact ⟨_, _, rfl, rfl, rfl, hvw, by simp, by simp⟩
    | cons q sb => simp at htags
  | cons p sa =>
    cases sb with
    | nil => simp at htags
    | cons q sb =>
      obtain ⟨x, kx⟩ := p
      obtain ⟨y, ky⟩ := q
      simp only [List.map_cons, List.cons.injEq] at htags
      obtain ⟨hxy, hrest⟩ := htags
      have fa' : ∀ p ∈ sa, Fits (n + 1) p.1 := fun p hp => (fa p (by simp [hp])).mono (by omega)
      have fb' : ∀ p ∈ sb, Fits (n + 1) p.1 := fun p hp => (fb p (by simp [hp])).mono (by omega)
      cases x <;> cases y <;> simp only [tag, Prod.mk.injEq, reduceCtorEq, Nat.reduceEqDiff, false_and] at hxy
      case arr.arr vs ws =>
        refine ⟨_, _, rfl, rfl, by simpa [tag] using hrest, hroot, ?_, ?_⟩
        · intro p hp
          rcases List.mem_cons.mp hp with rfl | hp
          · intro m e; cases e
          · exact fa' p hp
        · intro p hp
          rcases List.mem_cons.mp hp with rfl | hp
          · intro m e; cases e
          · exact fb' p hp
      case obj.obj m m' =>
        obtain ⟨C, hne⟩ := fa (.obj m, kx) (by simp) m rfl
        obtain ⟨C', hne'⟩ := fb (.obj m', ky) (by simp) m' rfl
        obtain ⟨t, _, e1, C1, h1⟩ := assign_ctd c C (by omega) kx v
        obtain ⟨t', _, e2, C2, h2⟩ := assign_ctd d C' (by omega) ky w
        refine ⟨⟨(.obj t, kx) :: sa, ra⟩, ⟨(.obj t', ky) :: sb, rb⟩, by simp [setParent, e1], by simp [setParent, e2], by simpa [tag] using hrest, hroot, ?_, ?_⟩
        · intro p hp
          rcases List.mem_cons.mp hp with rfl | hp
          · intro m e; cases e; exact ⟨C1, by omega⟩
          · exact fa' p hp
        · intro p hp
          rcases List.mem_cons.mp hp with rfl | hp
          · intro m e; cases e; exact ⟨C2, by omega⟩
          · exact fb' p hp
      all_goals
        refine ⟨_, _, rfl, rfl, by simpa [tag, hxy] using hrest, hroot, ?_, ?_⟩
        · intro p hp
          rcases List.mem_cons.mp hp with rfl | hp
          · intro m e; cases e
          · exact fa' p hp
        · intro p hp
          rcases List.mem_cons.mp hp with rfl | hp
          · intro m e; cases e
          · exact fb' p hp

theorem Shape.pop {n : Nat} {a b : Json.CbState} (S : Shape n a b) {p : Value × Bytes} {r : List (Value × Bytes)} (h : a.stack = p :: r) :
    ∃ q s, b.stack = q :: s ∧ tag p.1 = tag q.1 ∧ Shape n { a with stack := r } { b with stack := s } := by
  have ht := S.tags
  rw [h] at ht
  cases hb : b.stack with
  | nil => rw [hb] at ht; simp at ht
  | cons q s =>
    rw [hb] at ht
    simp only [List.map_cons, List.cons.injEq] at ht
    exact ⟨q, s, rfl, ht.1, ht.2, S.root, fun x hx => S.fa x (by rw [h]; simp [hx]), fun x hx => S.fb x (by rw [hb]; simp [hx])⟩

theorem Shape.mono {n n' : Nat} {a b : Json.CbState} (S : Shape n a b) (h : n ≤ n') : Shape n' a b :=
  ⟨S.tags, S.root, fun p hp => (S.fa p hp).mono h, fun p hp => (S.fb p hp).mono h⟩

theorem Shape.push {n : Nat} {a b : Json.CbState} (S : Shape n a b) {v w : Value} (k k' : Bytes) (ht : tag v = tag w) (hv : Fits n v) (hw : Fits n w) :
    Shape n { a with stack := (v, k) :: a.stack } { b with stack := (w, k') :: b.stack } := by
  refine ⟨by simp [ht, S.tags], S.root, ?_, ?_⟩
  · intro p hp
    rcases List.mem_cons.mp hp with rfl | hp
    · exact hv
    · exact S.fa p hp
  · intro p hp
    rcases List.mem_cons.mp hp with rfl | hp
    · exact hw
    · exact S.fb p hp

theorem cbStep_shape (c d : Ch) {n : Nat} (hn : n < 1073643498) {a b : Json.CbState} (S : Shape n a b) (e : Json.Ev) :
    (∃ u, cbStep c a e = .ub u ∧ cbStep d b e = .ub u) ∨ ∃ a' b', cbStep c a e = .ok a' ∧ cbStep d b e = .ok b' ∧ Shape (n + 1) a' b' := by
  have ending : (∃ u, cbStep c a .endArray = .ub u ∧ cbStep d b .endArray = .ub u) ∨
      ∃ a' b', cbStep c a .endArray = .ok a' ∧ cbStep d b .endArray = .ok b' ∧ Shape (n + 1) a' b' := by
    simp only [cbStep]
    cases ha : a.stack with
    | nil =>
      have hb : b.stack = [] := by have := S.tags; rw [ha] at this; simpa using this.symm
      rw [hb]
      exact .inl ⟨_, rfl, rfl⟩
    | cons p r =>
      obtain ⟨q, s, hb, hpq, S'⟩ := S.pop ha
      rw [hb]
      exact .inr (setParent_shape c d hn S' (by rw [tag_copyTop, tag_copyTop, hpq]))
  have ctd : Fits n (.obj (SMap.new 8)) := fun m e => by
    cases e
    refine ⟨Json.new8_counted, ?_⟩
    rw [Json.new8_counted.ne_eq, Json.new8_entries]
    simp
  cases e with
  | boolean x => exact .inr (setParent_shape c d hn S rfl)
  | number s => exact .inr (setParent_shape c d hn S rfl)
  | string s k =>
    cases k with
    | false => exact .inr (setParent_shape c d hn S rfl)
    | true =>
      simp only [cbStep]
      cases ha : a.stack with
      | nil =>
        have hb : b.stack = [] := by have := S.tags; rw [ha] at this; simpa using this.symm
        rw [hb]
        exact .inl ⟨_, rfl, rfl⟩
      | cons p r =>
        obtain ⟨q, s', hb, hpq, S'⟩ := S.pop ha
        rw [hb]
        exact .inr ⟨_, _, rfl, rfl, (S'.push s s hpq (S.fa p (by rw [ha]; simp)) (S.fb q (by rw [hb]; simp))).mono (by omega)⟩
  | beginArray => exact .inr ⟨_, _, rfl, rfl, (S.push [] [] rfl (fun m e => by cases e) (fun m e => by cases e)).mono (by omega)⟩
  | beginObject => exact .inr ⟨_, _, rfl, rfl, (S.push [] [] rfl ctd ctd).mono (by omega)⟩
  | endArray => exact ending
  | endObject => exact ending

theorem cbRun_shape (c d : Ch) : ∀ (es : List Json.Ev) (n : Nat) (a b : Json.CbState), n + es.length ≤ 1073643498 → Shape n a b →
    (∃ u, cbRun c a es = .ub u ∧ cbRun d b es = .ub u) ∨ ∃ a' b', cbRun c a es = .ok a' ∧ cbRun d b es = .ok b' ∧ tag a'.root = tag b'.root
  | [], _, a, b, _, S => .inr ⟨a, b, rfl, rfl, S.root⟩
  | e :: es, n, a, b, hn, S => by
    simp only [List.length_cons] at hn
    simp only [cbRun]
    rcases cbStep_shape c d (by omega) S e with ⟨u, h1, h2⟩ | ⟨a', b', h1, h2, S'⟩
    · rw [h1, h2]; exact .inl ⟨u, rfl, rfl⟩
    · rw [h1, h2]
      exact cbRun_shape c d es (n + 1) a' b' (by omega) S'

/-! ### Tables for any hash function -/

section
variable {V : Type}

/-- a table whose entries were placed with `hash` represents a finite map -/
structure HRel (hash : Bytes → UInt32) (t : SMap V) (m : FMap Bytes V) : Prop where
  good : Table.Good hash SEntry.keyO t
  lens : ∀ e ∈ t.entries, e.raw.length < 65536 ∧ e.keyLen < 65536
  abs : (t.bindings).Perm m

variable {hash : Bytes → UInt32} {t : SMap V} {m : FMap Bytes V}

theorem HRel.functional (R : HRel hash t m) : m.Functional := by
  have h1 := R.good.nodup
  have h2 : t.entries.map SEntry.keyO = ((t.bindings.map Prod.fst).map some) := by
    rw [SRel.bindings_eq, List.map_map, List.map_map]; rfl
  rw [h2] at h1
  exact (R.abs.map Prod.fst).nodup_iff.mp (List.Nodup.of_map _ h1)

theorem HRel.ne_eq (R : HRel hash t m) : t.ne = m.length := by
  rw [R.good.ne_eq]
  have := R.abs.length_eq
  simpa [SRel.bindings_eq] using this

theorem HRel.of_mem (R : HRel hash t m) {e : SEntry V} (he : e ∈ t.entries) : m.lookup e.key = some e.val :=
  FMap.lookup_of_mem R.functional (R.abs.mem_iff.mp (List.mem_map.mpr ⟨e, he, rfl⟩))

theorem HRel.none_of (R : HRel hash t m) {k : Bytes} (hno : ∀ e ∈ t.entries, SEntry.keyO e ≠ some k) : m.lookup k = none := by
  rw [FMap.lookup_none_iff]
  intro v hm
  obtain ⟨e, he, hkv⟩ := List.mem_map.mp (R.abs.mem_iff.mpr hm)
  refine hno e he ?_
  simp only [Prod.mk.injEq] at hkv
  rw [SEntry.keyO, hkv.1]

theorem HRel.new8 : HRel hash (SMap.new 8 : SMap V) [] := by
  obtain ⟨G, he⟩ := Table.new_good (E := SEntry V) hash SEntry.keyO (n := 8) (by omega)
  refine ⟨G, ?_, ?_⟩
  · intro e h; unfold SMap.new at h; rw [he] at h; exact absurd h (by simp)
  · rw [SRel.bindings_eq]; unfold SMap.new; rw [he]; exact List.Perm.refl _

end

theorem find_rel (c : Ch) {V : Type} {t : SMap V} {m : FMap Bytes V} (R : HRel (sdbm c) t m) (k : Bytes) : find c t k = .ok (m.lookup k) := by
  unfold find
  rcases Table.findE_spec R.good k with ⟨h, hno⟩ | ⟨e, h, he, hk⟩
  · simp [h, R.none_of hno]
  · have hk' : e.key = k := by simpa [SEntry.keyO] using hk
    subst hk'
    simp [h, R.of_mem he]

theorem assign_rel (c : Ch) {V : Type} {t : SMap V} {m : FMap Bytes V} (R : HRel (sdbm c) t m) (hi : t.init = true) (hm : m.length < 1073643498) {k : Bytes}
    (hk : k.length < 65536) (v : V) : ∃ t' b, assign c t k v = .ok (t', b) ∧ t'.init = true ∧ HRel (sdbm c) t' (m.set k v) := by
  have hne := R.ne_eq
  rcases Table.insertE_spec R.good (by omega) k with ⟨i, b, e, hins, hib, hs, hke, he⟩ | ⟨hno, hins⟩
  · have hk' : e.key = k := by simpa [SEntry.keyO] using hke
    have hl : m.lookup k = some e.val := hk' ▸ R.of_mem he
    obtain ⟨bh, bs⟩ := b
    simp only at hs
    subst hs
    refine ⟨{ t with buckets := t.buckets.set i ⟨bh, .full { e with val := v }⟩ }, true, by simp [assign, insert, hins, hib], hi, ?_⟩
    have W : Table.WF (sdbm c) SEntry.keyO t := by
      rcases R.good with rfl | W
      · simp [Table.null] at hib
      · exact W
    obtain ⟨W', hp⟩ := W.update (e' := { e with val := v }) hib rfl rfl
    refine ⟨Or.inr W', ?_, ?_⟩
    · intro x hx
      have : x ∈ e :: Table.ents (t.buckets.set i ⟨bh, .full { e with val := v }⟩) := List.mem_cons_of_mem _ hx
      rcases List.mem_cons.mp (hp.mem_iff.mp this) with rfl | h
      · exact R.lens e he
      · exact R.lens x h
    · rw [SRel.bindings_eq]
      have h1 := hp.map SEntry.kv
      simp only [List.map_cons] at h1
      have h2 := FMap.perm_erase R.functional hl
      have h3 : (SEntry.kv e :: (Table.ents (t.buckets.set i ⟨bh, .full { e with val := v }⟩)).map SEntry.kv).Perm
          ((k, v) :: (k, e.val) :: m.erase k) := by
        refine h1.trans ?_
        have : SEntry.kv { e with val := v } = (k, v) := by rw [← hk']; rfl
        rw [this]
        exact List.Perm.cons _ (R.abs.trans h2)
      have h4 : SEntry.kv e = (k, e.val) := by rw [← hk']; rfl
      rw [h4] at h3
      exact List.Perm.cons_inv (h3.trans (List.Perm.swap _ _ _))
  · have hl := R.none_of hno
    obtain ⟨i, t', t0, u, h1, h2, h3, _⟩ := hins SEntry.keyO (SEntry.mk' k v) (fun _ _ => rfl) (SEntry.keyO_mk' hk v)
    refine ⟨t', false, by simp [assign, insert, h1], h2.init, ⟨Or.inr h2, ?_, ?_⟩⟩
    · intro e he
      rcases List.mem_cons.mp (h3.mem_iff.mp he) with rfl | h
      · exact ⟨hk, by simp only [SEntry.mk']; omega⟩
      · exact R.lens e h
    · rw [FMap.set, FMap.erase_of_none hl, SRel.bindings_eq]
      refine (h3.map _).trans ?_
      rw [List.map_cons, SEntry.kv, SEntry.key_mk' hk]
      exact List.Perm.cons _ R.abs

open SMap in
theorem copy_rel {V : Type} {hash : Bytes → UInt32} {t : SMap V} {m : FMap Bytes V} (R : HRel hash t m) (hi : t.init = true) : HRel hash (copy t) m := by
  have W : Table.WF hash SEntry.keyO t := by
    rcases R.good with rfl | W
    · simp [Table.null] at hi
    · exact W
  have hke : ∀ e ∈ t.entries, (SEntry.mk' e.key e.val).key = e.key := fun e he => SEntry.key_mk' (e.key_len (R.lens e he).2) _
  have hent : (copy t).entries = t.entries.map fun e => SEntry.mk' e.key e.val := copyB_ents t.buckets
  have hlen : (t.buckets.map copyB).length = t.buckets.length := by simp
  have hkeys : (Table.ents (t.buckets.map copyB)).map SEntry.keyO = (Table.ents t.buckets).map SEntry.keyO := by
    rw [copyB_ents, List.map_map]
    apply List.map_congr_left
    intro e he
    simp only [Function.comp, SEntry.keyO]
    rw [hke e he]
  refine ⟨Or.inr ⟨rfl, ?_, ⟨?_, ?_, ?_⟩, ?_, ?_, W.room, W.small⟩, ?_, ?_⟩
  · rw [copy_eq]; simpa using W.len
  · intro b hb e' hs
    obtain ⟨b0, hb0, rfl⟩ := List.mem_map.mp (by rw [copy_eq] at hb; exact hb)
    obtain ⟨e, hs0, rfl⟩ := copyB_full hs
    obtain ⟨k, hk, hh⟩ := W.lay.hashOk b0 hb0 e hs0
    obtain ⟨i, hi⟩ := List.mem_iff_getElem?.mp hb0
    refine ⟨k, ?_, by rw [copyB_hash]; exact hh⟩
    rw [SEntry.keyO, hke e (Table.mem_ents.mpr ⟨i, b0, hi, hs0⟩)]; exact hk
  · intro i b e' hib hs
    have hib : (t.buckets.map copyB)[i]? = some b := hib
    rw [List.getElem?_map] at hib
    obtain ⟨b0, hb0, rfl⟩ := Option.map_eq_some_iff.mp hib
    obtain ⟨e, hs0, rfl⟩ := copyB_full hs
    have := W.lay.reach i b0 e hb0 hs0
    show Table.Reach (t.buckets.map copyB) _ i
    rw [show (copy t).buckets.length = t.buckets.length from hlen, copyB_hash]
    refine Table.Reach.mono hlen ?_ this
    intro j b hj hne
    exact ⟨copyB b, by rw [List.getElem?_map, hj]; rfl, copyB_occ hne⟩
  · show ((Table.ents (t.buckets.map copyB)).map SEntry.keyO).Nodup
    rw [hkeys]; exact W.lay.nodup
  · show t.ne = _
    rw [hent, List.length_map]; exact W.ne_eq
  · show t.nt = Table.tmb (t.buckets.map copyB)
    rw [copyB_tmb]; exact W.nt_eq
  · intro e he
    rw [hent] at he
    obtain ⟨e0, he0, rfl⟩ := List.mem_map.mp he
    exact ⟨e0.key_len (R.lens e0 he0).2, by simp only [SEntry.mk']; omega⟩
  · rw [SRel.bindings_eq, hent, List.map_map]
    have : t.entries.map (SEntry.kv ∘ fun e => SEntry.mk' e.key e.val) = t.bindings := by
      rw [SRel.bindings_eq]
      apply List.map_congr_left
      intro e he
      show ((SEntry.mk' e.key e.val).key, e.val) = _
      rw [hke e he]; rfl
    rw [this]; exact R.abs

/-! ### Values that are alike -/

/-- values built by the same steps -/
inductive Twin (c d : Ch) : Value → Value → Prop
  | undef : Twin c d .undef .undef
  | int {z} : Twin c d (.int z) (.int z)
  | bool {b} : Twin c d (.bool b) (.bool b)
  | str {s} : Twin c d (.str s) (.str s)
  | arr (ps : List (Value × Value)) : (∀ p ∈ ps, Twin c d p.1 p.2) → Twin c d (.arr (ps.map (·.1))) (.arr (ps.map (·.2)))
  | obj {t t'} (ps : List (Bytes × Value × Value)) : t.init = true → t'.init = true → HRel (sdbm c) t (ps.map fun p => (p.1, p.2.1)) →
      HRel (sdbm d) t' (ps.map fun p => (p.1, p.2.2)) → (∀ p ∈ ps, Twin c d p.2.1 p.2.2) → Twin c d (.obj t) (.obj t')

theorem erase_map {α : Type} (ps : List (Bytes × α × α)) (k : Bytes) (f : α × α → α) :
    FMap.erase (ps.map fun p => (p.1, f p.2)) k = (ps.filter fun p => p.1 ≠ k).map fun p => (p.1, f p.2) := by
  unfold FMap.erase
  rw [List.filter_map]
  rfl

theorem lookup_map (ps : List (Bytes × Value × Value)) (k : Bytes) (f : Value × Value → Value) :
    FMap.lookup (ps.map fun p => (p.1, f p.2)) k = (ps.find? fun p => p.1 = k).map fun p => f p.2 := by
  unfold FMap.lookup
  rw [List.find?_map, Option.map_map]
  rfl

theorem Twin.alike {c d : Ch} {v w : Value} (h : Twin c d v w) : Alike c d v w := by
  induction h with
  | undef => exact .undef
  | int => exact .int
  | bool => exact .bool
  | str => exact .str
  | arr ps _ ih =>
    refine .arr (by simp) ?_
    intro i v w hv hw
    rw [List.getElem?_map] at hv hw
    obtain ⟨p, hp, rfl⟩ := Option.map_eq_some_iff.mp hv
    obtain ⟨q, hq, rfl⟩ := Option.map_eq_some_iff.mp hw
    rw [hp] at hq
    cases hq
    exact ih p (List.mem_of_getElem? hp)
  | obj ps i1 i2 R R' _ ih =>
    rename_i t t' _
    refine .obj ?_ ?_ (fun k => ⟨_, find_rel c R k⟩) (fun k => ⟨_, find_rel d R' k⟩) ?_ ?_
    · rw [SMap.size, SMap.size, R.ne_eq, R'.ne_eq]; simp
    · refine (R.abs.map Prod.fst).trans (List.Perm.trans ?_ (R'.abs.map Prod.fst).symm)
      rw [List.map_map, List.map_map]
      exact List.Perm.refl _
    · intro k
      rw [find_rel c R, find_rel d R', lookup_map ps k (·.1), lookup_map ps k (·.2)]
      cases ps.find? fun p => p.1 = k <;> simp
    · intro k v w hv hw
      rw [find_rel c R, lookup_map ps k (·.1)] at hv
      rw [find_rel d R', lookup_map ps k (·.2)] at hw
      cases hf : ps.find? fun p => p.1 = k with
      | none => rw [hf] at hv; simp at hv
      | some p =>
        rw [hf] at hv hw
        simp at hv hw
        subst hv hw
        exact ih p (List.mem_of_find?_eq_some hf)

theorem Twin.copyTop {c d : Ch} {v w : Value} (h : Twin c d v w) : Twin c d (Json.copyTop v) (Json.copyTop w) := by
  cases h with
  | undef => exact .undef
  | int => exact .int
  | bool => exact .bool
  | str => exact .str
  | arr ps h => exact .arr ps h
  | obj ps i1 i2 R R' h => exact .obj ps rfl rfl (copy_rel R i1) (copy_rel R' i2) h

/-- at most `n` members -/
def Most (n : Nat) (v : Value) : Prop := ∀ m, v = .obj m → m.ne ≤ n

structure Pair (c d : Ch) (n : Nat) (p q : Value × Bytes) : Prop where
  key : p.2 = q.2
  short : p.2.length < 65536
  twin : Twin c d p.1 q.1
  most : Most n p.1

structure Twins (c d : Ch) (n : Nat) (a b : Json.CbState) : Prop where
  stack : List.Forall₂ (Pair c d n) a.stack b.stack
  root : Twin c d a.root b.root

theorem Pair.mono {c d : Ch} {n n' : Nat} {p q : Value × Bytes} (h : Pair c d n p q) (hn : n ≤ n') : Pair c d n' p q :=
  ⟨h.key, h.short, h.twin, fun m e => Nat.le_trans (h.most m e) hn⟩

theorem forall2_mono {α β : Type} {R S : α → β → Prop} (h : ∀ a b, R a b → S a b) {l : List α} {l' : List β} (H : List.Forall₂ R l l') : List.Forall₂ S l l' := by
  induction H with
  | nil => exact .nil
  | cons h1 _ ih => exact .cons (h _ _ h1) ih

theorem Twins.mono {c d : Ch} {n n' : Nat} {a b : Json.CbState} (h : Twins c d n a b) (hn : n ≤ n') : Twins c d n' a b :=
  ⟨forall2_mono (fun _ _ hp => hp.mono hn) h.stack, h.root⟩

theorem setParent_twins (c d : Ch) {n : Nat} (hn : n < 1073643498) {a b : Json.CbState} (S : Twins c d n a b) {v w : Value} (hvw : Twin c d v w) :
    ∃ a' b', setParent c a v = .ok a' ∧ setParent d b w = .ok b' ∧ Twins c d (n + 1) a' b' := by
  obtain ⟨sa, ra⟩ := a
  obtain ⟨sb, rb⟩ := b
  obtain ⟨hst, hroot⟩ := S
  simp only at hst hroot
  cases hst with
  | nil => exact ⟨_, _, rfl, rfl, .nil, hvw⟩
  | cons hp hrest =>
    rename_i p q sa sb
    obtain ⟨x, kx⟩ := p
    obtain ⟨y, ky⟩ := q
    obtain ⟨hk, hs, ht, hm⟩ := hp
    simp only at hk hs ht hm
    subst hk
    have hrest' := forall2_mono (fun _ _ (h : Pair c d n _ _) => h.mono (Nat.le_succ n)) hrest
    cases ht with
    | undef => exact ⟨_, _, rfl, rfl, .cons ⟨rfl, hs, .undef, fun m e => by cases e⟩ hrest', hroot⟩
    | int => exact ⟨_, _, rfl, rfl, .cons ⟨rfl, hs, .int, fun m e => by cases e⟩ hrest', hroot⟩
    | bool => exact ⟨_, _, rfl, rfl, .cons ⟨rfl, hs, .bool, fun m e => by cases e⟩ hrest', hroot⟩
    | str => exact ⟨_, _, rfl, rfl, .cons ⟨rfl, hs, .str, fun m e => by cases e⟩ hrest', hroot⟩
    | arr ps hps =>
      refine ⟨_, _, rfl, rfl, .cons ⟨rfl, hs, ?_, fun m e => by cases e⟩ hrest', hroot⟩
      have := Twin.arr (c := c) (d := d) (ps ++ [(v, w)]) (by
        intro p hp
        rcases List.mem_append.mp hp with hp | hp
        · exact hps p hp
        · rw [List.mem_singleton.mp hp]; exact hvw)
      simpa using this
    | obj ps i1 i2 R R' hps =>
      rename_i t t'
      have hl : (ps.map fun p => (p.1, p.2.1)).length < 1073643498 := by rw [← R.ne_eq]; have := hm t rfl; omega
      obtain ⟨t1, _, e1, j1, R1⟩ := assign_rel c R i1 hl hs v
      obtain ⟨t2, _, e2, j2, R2⟩ := assign_rel d R' i2 (by simpa using hl) hs w
      refine ⟨⟨(.obj t1, kx) :: sa, ra⟩, ⟨(.obj t2, kx) :: sb, rb⟩, by simp [setParent, e1], by simp [setParent, e2],
        .cons ⟨rfl, hs, .obj ((kx, v, w) :: ps.filter fun p => p.1 ≠ kx) j1 j2 ?_ ?_ ?_, ?_⟩ hrest', hroot⟩
      · have := R1
        rw [FMap.set, erase_map ps kx (·.1)] at this
        simpa using this
      · have := R2
        rw [FMap.set, erase_map ps kx (·.2)] at this
        simpa using this
      · intro p hp
        rcases List.mem_cons.mp hp with rfl | hp
        · exact hvw
        · exact hps p (List.mem_of_mem_filter hp)
      · intro m e
        cases e
        rw [R1.ne_eq, FMap.set, List.length_cons]
        have := FMap.length_erase_le' (ps.map fun p => (p.1, p.2.1)) kx
        rw [← R.ne_eq] at this
        have := hm t rfl
        omega

/-- the keys among the callback invocations are short -/
def ShortEvs (es : List Json.Ev) : Prop := ∀ k, Json.Ev.string k true ∈ es → k.length < 65536

theorem cbStep_twins (c d : Ch) {n : Nat} (hn : n < 1073643498) {a b : Json.CbState} (S : Twins c d n a b) (e : Json.Ev)
    (he : ∀ k, e = .string k true → k.length < 65536) :
    (∃ u, cbStep c a e = .ub u ∧ cbStep d b e = .ub u) ∨ ∃ a' b', cbStep c a e = .ok a' ∧ cbStep d b e = .ok b' ∧ Twins c d (n + 1) a' b' := by
  obtain ⟨sa, ra⟩ := a
  obtain ⟨sb, rb⟩ := b
  have ending : (∃ u, cbStep c ⟨sa, ra⟩ .endArray = .ub u ∧ cbStep d ⟨sb, rb⟩ .endArray = .ub u) ∨
      ∃ a' b', cbStep c ⟨sa, ra⟩ .endArray = .ok a' ∧ cbStep d ⟨sb, rb⟩ .endArray = .ok b' ∧ Twins c d (n + 1) a' b' := by
    obtain ⟨hst, hroot⟩ := S
    cases hst with
    | nil => exact .inl ⟨_, rfl, rfl⟩
    | cons hp hrest => exact .inr (setParent_twins c d hn (a := ⟨_, ra⟩) (b := ⟨_, rb⟩) ⟨hrest, hroot⟩ hp.twin.copyTop)
  cases e with
  | boolean x => exact .inr (setParent_twins c d hn S .bool)
  | number s => exact .inr (setParent_twins c d hn S .int)
  | string s k =>
    cases k with
    | false => exact .inr (setParent_twins c d hn S .str)
    | true =>
      obtain ⟨hst, hroot⟩ := S
      cases hst with
      | nil => exact .inl ⟨_, rfl, rfl⟩
      | cons hp hrest =>
        exact .inr ⟨_, _, rfl, rfl, Twins.mono ⟨.cons ⟨rfl, he s rfl, hp.twin, hp.most⟩ hrest, hroot⟩ (Nat.le_succ n)⟩
  | beginArray => exact .inr ⟨_, _, rfl, rfl, Twins.mono ⟨.cons ⟨rfl, by simp, .arr [] (by simp), fun m e => by cases e⟩ S.stack, S.root⟩ (Nat.le_succ n)⟩
  | beginObject =>
    refine .inr ⟨_, _, rfl, rfl, Twins.mono ⟨.cons ⟨rfl, by simp, .obj [] Json.new8_counted.init Json.new8_counted.init HRel.new8 HRel.new8 (by simp), ?_⟩ S.stack, S.root⟩ (Nat.le_succ n)⟩
    intro m e
    cases e
    rw [Json.new8_counted.ne_eq, Json.new8_entries]
    simp
  | endArray => exact ending
  | endObject => exact ending

theorem cbRun_twins (c d : Ch) : ∀ (es : List Json.Ev) (n : Nat) (a b : Json.CbState), n + es.length ≤ 1073643498 → ShortEvs es → Twins c d n a b →
    (∃ u, cbRun c a es = .ub u ∧ cbRun d b es = .ub u) ∨ ∃ a' b', cbRun c a es = .ok a' ∧ cbRun d b es = .ok b' ∧ Twin c d a'.root b'.root
  | [], _, a, b, _, _, S => .inr ⟨a, b, rfl, rfl, S.root⟩
  | e :: es, n, a, b, hn, hk, S => by
    simp only [List.length_cons] at hn
    simp only [cbRun]
    rcases cbStep_twins c d (by omega) S e (fun k h => hk k (by simp [h])) with ⟨u, h1, h2⟩ | ⟨a', b', h1, h2, S'⟩
    · rw [h1, h2]; exact .inl ⟨u, rfl, rfl⟩
    · rw [h1, h2]
      exact cbRun_twins c d es (n + 1) a' b' (by omega) (fun k h => hk k (by simp [h])) S'

open Json in
theorem evOf_short {es : List Ev} {j : JV} (h : EvOf es j) : ShortKeys j → ShortEvs es := by
  refine EvOf.rec (motive_1 := fun es j _ => ShortKeys j → ShortEvs es)
    (motive_2 := fun es js _ => (∀ j ∈ js, ShortKeys j) → ShortEvs es)
    (motive_3 := fun es ms _ => (∀ k j, (k, j) ∈ ms → k.length < 65536 ∧ ShortKeys j) → ShortEvs es) ?_ ?_ ?_ ?_ ?_ ?_ ?_ ?_ ?_ h
  · intro b _ k hk; simp at hk
  · intro t z _ _ k hk; simp at hk
  · intro s _ k hk; simp at hk
  · intro es js _ ih hj k hk
    cases hj with
    | arr hj => exact ih hj k (by simpa using hk)
  · intro es ms _ ih hj k hk
    cases hj with
    | obj h1 h2 => exact ih (fun k j hm => ⟨h1 k j hm, h2 k j hm⟩) k (by simpa using hk)
  · intro _ k hk; simp at hk
  · intro es js e j _ _ ih1 ih2 hj k hk
    rcases List.mem_append.mp hk with hk | hk
    · exact ih1 (hj j (by simp)) k hk
    · exact ih2 (fun x hx => hj x (by simp [hx])) k hk
  · intro _ k hk; simp at hk
  · intro es ms key e j _ _ ih1 ih2 hj k hk
    rcases List.mem_cons.mp hk with hk | hk
    · cases hk; exact (hj key j (by simp)).1
    · rcases List.mem_append.mp hk with hk | hk
      · exact ih1 (hj key j (by simp)).2 k hk
      · exact ih2 (fun k' x hx => hj k' x (by simp [hx])) k hk

/-! ### Parsing -/

theorem shape_init : Shape 0 Json.CbState.init Json.CbState.init := ⟨rfl, rfl, by simp [Json.CbState.init], by simp [Json.CbState.init]⟩
theorem twins_init (c d : Ch) : Twins c d 0 Json.CbState.init Json.CbState.init := ⟨.nil, .undef⟩

theorem tag_undef {v : Value} (h : tag v = (0, [])) : v = .undef := by cases v <;> simp [tag] at h <;> rfl

theorem tag_toStr {v w : Value} (h : tag v = tag w) : Value.toStr v = Value.toStr w := by
  cases v <;> cases w <;> simp [tag] at h <;> simp [Value.toStr, h]

theorem parse_any (c d : Ch) (L : Json.Layout) (s : Bytes) (hlen : s.length ≤ 1073643498) :
    (∃ w t r j v v', s = w ++ (t ++ r) ∧ WS w ∧ JText t j ∧ parse c L s = .ok ⟨true, v⟩ ∧ parse d L s = .ok ⟨true, v'⟩ ∧
      (ShortKeys j → Twin c d v v') ∧ (AsciiKeys j → v = v') ∧ Value.toStr v = Value.toStr v') ∨
    (parse c L s = .ok ⟨false, .undef⟩ ∧ parse d L s = .ok ⟨false, .undef⟩) := by
  have hpost := Json.parseValue_post L (s.length + 1) ⟨s, []⟩ (by simp)
  have hall : ∀ ch : Ch, ∃ b x, parse ch L s = .ok ⟨b, x⟩ ∧ (b = false → x = .undef) := by
    intro ch
    have hs : ∃ b x, parse .signed L s = .ok ⟨b, x⟩ ∧ (b = false → x = .undef) := by
      rw [parse_signed]
      rcases Json.parse_post L s hlen with ⟨_, _, _, _, x, h, _⟩ | h
      · exact ⟨_, _, h, by simp⟩
      · exact ⟨_, _, h, by simp⟩
    obtain ⟨b, x, hx, hb⟩ := hs
    unfold parse at hx ⊢
    cases hp : Json.parseValue L (s.length + 1) ⟨s, []⟩ with
    | ub u => rw [hp] at hpost; exact absurd hpost id
    | diverge => rw [hp] at hpost; exact absurd hpost id
    | ok u st =>
      rw [hp] at hpost
      obtain ⟨w, t, j, es, _, _, _, hit, hev, hel⟩ := hpost
      simp only [List.nil_append] at hev hit
      have hl : es.length ≤ 1073643498 := by rw [hit] at hlen; simp at hlen; omega
      simp only [hp, hev] at hx ⊢
      rcases cbRun_shape .signed ch es 0 _ _ (by omega) shape_init with ⟨u, h1, h2⟩ | ⟨a, b, h1, h2, _⟩
      · simp only [h1] at hx; cases hx
      · exact ⟨_, _, by simp only [h2]; rfl, by simp⟩
    | err u st =>
      rw [hp] at hpost
      obtain ⟨es, _, hev, hel⟩ := hpost
      simp only [List.nil_append] at hev hel
      simp only [hp, hev] at hx ⊢
      rcases cbRun_shape .signed ch es 0 _ _ (by omega) shape_init with ⟨u, h1, h2⟩ | ⟨a, b', h1, h2, ht⟩
      · simp only [h1] at hx; cases hx
      · refine ⟨_, _, by simp only [h2]; rfl, fun _ => ?_⟩
        simp only [h1] at hx
        cases hx
        exact tag_undef (by rw [← ht, hb rfl]; rfl)
  obtain ⟨b1, x1, p1, u1⟩ := hall c
  obtain ⟨b2, x2, p2, u2⟩ := hall d
  have p1' := p1
  have p2' := p2
  unfold parse at p1 p2
  cases hp : Json.parseValue L (s.length + 1) ⟨s, []⟩ with
  | ub u => rw [hp] at hpost; exact absurd hpost id
  | diverge => rw [hp] at hpost; exact absurd hpost id
  | err u st =>
    rw [hp] at p1 p2
    obtain ⟨a1, _, e1⟩ := Res.bind_eq_ok.mp p1
    obtain ⟨a2, _, e2⟩ := Res.bind_eq_ok.mp p2
    cases e1; cases e2
    rw [u1 rfl] at p1'
    rw [u2 rfl] at p2'
    exact .inr ⟨p1', p2'⟩
  | ok u st =>
    rw [hp] at p1 p2 hpost
    obtain ⟨a1, r1, e1⟩ := Res.bind_eq_ok.mp p1
    obtain ⟨a2, r2, e2⟩ := Res.bind_eq_ok.mp p2
    cases e1; cases e2
    obtain ⟨w, t, j, es, hw, ht, hes, hit, hev, hel⟩ := hpost
    simp only [List.nil_append] at hev hit
    have hl : es.length ≤ 1073643498 := by rw [hit] at hlen; simp at hlen; omega
    rw [hev] at r1 r2
    refine .inl ⟨w, t, _, j, _, _, hit, hw, ht, p1', p2', fun hk => ?_, fun hk => ?_, ?_⟩
    · rcases cbRun_twins c d es 0 _ _ (by omega) (evOf_short hes hk) (twins_init c d) with ⟨u, h1, _⟩ | ⟨a, b, h1, h2, T⟩
      · rw [h1] at r1; cases r1
      · rw [h1] at r1; rw [h2] at r2; cases r1; cases r2; exact T
    · have := cbRun_ascii c d es Json.CbState.init (by simp [AsciiStack, Json.CbState.init]) (evOf_ascii hes hk)
      rw [this, r2] at r1
      cases r1
      rfl
    · rcases cbRun_shape c d es 0 _ _ (by omega) shape_init with ⟨u, h1, _⟩ | ⟨a, b, h1, h2, T⟩
      · rw [h1] at r1; cases r1
      · rw [h1] at r1; rw [h2] at r2; cases r1; cases r2; exact tag_toStr T

/-! ### Short texts have short keys -/

theorem strBody_le {b s : Bytes} (h : StrBody b s) : s.length ≤ b.length := by
  induction h with
  | nil => simp
  | raw _ _ _ ih => simp; omega
  | esc _ _ ih => simp; omega
  | uni _ _ _ _ _ ih => simp; omega

theorem jtext_short {t : Bytes} {j : JV} (h : JText t j) : t.length < 65536 → ShortKeys j := by
  refine JText.rec (motive_1 := fun t j _ => t.length < 65536 → ShortKeys j)
    (motive_2 := fun t js _ => t.length < 65536 → ∀ j ∈ js, ShortKeys j)
    (motive_3 := fun t ms _ => t.length < 65536 → ∀ k j, (k, j) ∈ ms → k.length < 65536 ∧ ShortKeys j)
    ?_ ?_ ?_ ?_ ?_ ?_ ?_ ?_ ?_ ?_ ?_ ?_ h
  · exact fun _ => .bool
  · exact fun _ => .bool
  · exact fun _ _ => .int
  · exact fun _ _ => .str
  · exact fun _ _ => .arr (by simp)
  · exact fun _ ih hl => .arr (ih (by simp at hl; omega))
  · exact fun _ _ => .obj (by simp) (by simp)
  · exact fun _ ih hl => .obj (fun k j hm => (ih (by simp at hl; omega) k j hm).1) (fun k j hm => (ih (by simp at hl; omega) k j hm).2)
  · intro w t w' j _ _ _ ih hl x hx
    rw [List.mem_singleton.mp hx]
    exact ih (by simp at hl; omega)
  · intro w t w' j r js _ _ _ _ ih1 ih2 hl x hx
    simp at hl
    rcases List.mem_cons.mp hx with rfl | hx
    · exact ih1 (by omega)
    · exact ih2 (by omega) x hx
  · intro w b k w1 w2 t w3 j _ hb _ _ _ _ ih hl k' j' hm
    have := strBody_le hb
    simp at hl hm
    obtain ⟨rfl, rfl⟩ := hm
    exact ⟨by omega, ih (by omega)⟩
  · intro w b k w1 w2 t w3 j r ms _ hb _ _ _ _ _ ih1 ih2 hl k' j' hm
    have := strBody_le hb
    simp at hl
    rcases List.mem_cons.mp hm with h | hm
    · cases h
      exact ⟨by omega, ih1 (by omega)⟩
    · exact ih2 (by omega) k' j' hm

theorem shortArgs_of_length {s : Bytes} (h : s.length < 65536) : ShortArgs s := by
  rintro w t r j rfl _ ht
  exact jtext_short ht (by simp at h; omega)

/-! ### Entry points -/

theorem hooks_eq {S : Type} {H H' : Base.Hooks S} {vs ws : List Value} (hp : H.parse H.init vs = H'.parse H'.init ws)
    (hr : ∀ st, H.parse H.init vs = (st, .ok true) → H.gas st = H'.gas st ∧ H.run st = H'.run st) :
    (Base.getGas H ⟨false, false, .arr vs, .arr [], H.init, []⟩).2 = (Base.getGas H' ⟨false, false, .arr ws, .arr [], H'.init, []⟩).2 ∧
    (Base.start H ⟨false, false, .arr vs, .arr [], H.init, []⟩).2 = (Base.start H' ⟨false, false, .arr ws, .arr [], H'.init, []⟩).2 := by
  obtain ⟨i1, p1, g1, r1⟩ := H
  obtain ⟨i2, p2, g2, r2⟩ := H'
  simp only at hp hr ⊢
  cases hq : p2 i2 ws with
  | mk st r =>
    rw [hq] at hp
    cases r with
    | ok b =>
      cases b with
      | false => simp [Base.getGas, Base.start, Base.check, Value.toArray, hp, hq]
      | true =>
        obtain ⟨h1, h2⟩ := hr st hp
        constructor
        · simp [Base.getGas, Base.check, Value.toArray, hp, hq, h1]
        · simp only [Base.start, Base.check, Value.toArray, hp, hq, h2, Bool.false_eq_true, if_false]
          generalize r2 st [] = x
          obtain ⟨st', x, r⟩ := x
          cases r with
          | ok b => cases b <;> simp
          | _ => simp
    | _ => simp [Base.getGas, Base.start, Base.check, Value.toArray, hp, hq]

theorem hooks_bad {S : Type} {H H' : Base.Hooks S} {v w : Value} (hv : ∀ vs, v ≠ .arr vs) (hw : ∀ vs, w ≠ .arr vs) :
    (Base.getGas H ⟨false, false, v, .arr [], H.init, []⟩).2 = (Base.getGas H' ⟨false, false, w, .arr [], H'.init, []⟩).2 ∧
    (Base.start H ⟨false, false, v, .arr [], H.init, []⟩).2 = (Base.start H' ⟨false, false, w, .arr [], H'.init, []⟩).2 := by
  have e : ∀ v : Value, (∀ vs, v ≠ .arr vs) → v.toArray = .ub .badUnion := by
    intro v h
    cases v with
    | arr vs => exact absurd rfl (h vs)
    | _ => rfl
  simp [Base.getGas, Base.start, Base.check, e v hv, e w hw]

theorem twin_arr_left {c d : Ch} {vs : List Value} {w : Value} (h : Twin c d (.arr vs) w) :
    ∃ ws, w = .arr ws ∧ vs.length = ws.length ∧ ∀ (i : Nat) v w, vs[i]? = some v → ws[i]? = some w → Alike c d v w := by
  generalize hx : Value.arr vs = x at h
  have ha := h.alike
  subst hx
  cases ha with
  | arr h1 h2 => exact ⟨_, rfl, h1, h2⟩

theorem entry_eq {S : Type} (c d : Ch) {H H' : Base.Hooks S} (L : Json.Layout) (s : Bytes) (hlen : s.length ≤ 1073643498) (hs : ShortArgs s)
    (h : ∀ vs ws : List Value, parse c L s = .ok ⟨true, .arr vs⟩ → parse d L s = .ok ⟨true, .arr ws⟩ → vs.length = ws.length →
      (∀ (i : Nat) v w, vs[i]? = some v → ws[i]? = some w → Alike c d v w) →
      H.parse H.init vs = H'.parse H'.init ws ∧ ∀ st, H.parse H.init vs = (st, .ok true) → H.gas st = H'.gas st ∧ H.run st = H'.run st) :
    (construct c H L s >>= fun o => (Base.getGas H o).2) = (construct d H' L s >>= fun o => (Base.getGas H' o).2) ∧
    (construct c H L s >>= fun o => (Base.start H o).2) = (construct d H' L s >>= fun o => (Base.start H' o).2) := by
  rcases parse_any c d L s hlen with ⟨w, t, r, j, v, v', hit, hw, ht, h1, h2, T, _, _⟩ | ⟨h1, h2⟩
  · have T := T (hs w t r j hit hw ht)
    simp only [construct, h1, h2, Res.ok_bind, if_true]
    cases v with
    | arr vs =>
      obtain ⟨ws, rfl, hl, ha⟩ := twin_arr_left T
      obtain ⟨e1, e2⟩ := h vs ws h1 h2 hl ha
      exact hooks_eq e1 e2
    | _ =>
      refine hooks_bad ?_ ?_
      · intro vs e; cases e
      · intro vs e; cases T <;> cases e
  · simp only [construct, h1, h2, Res.ok_bind]
    exact ⟨rfl, rfl⟩

theorem alike_toStr {c d : Ch} {v w : Value} (h : Alike c d v w) : Value.toStr v = Value.toStr w := by cases h <;> rfl

theorem alike_argAt {c d : Ch} {vs ws : List Value} (hl : vs.length = ws.length)
    (h : ∀ (i : Nat) v w, vs[i]? = some v → ws[i]? = some w → Alike c d v w) (i : Int) :
    (Value.argAt vs i >>= Value.toStr) = (Value.argAt ws i >>= Value.toStr) := by
  unfold Value.argAt
  generalize (i % 18446744073709551616).toNat = n
  cases hv : vs[n]? with
  | none =>
    have : ws[n]? = none := by rw [List.getElem?_eq_none_iff] at hv ⊢; omega
    rw [this]
  | some v =>
    cases hw : ws[n]? with
    | none => rw [List.getElem?_eq_none_iff] at hw; have := (List.getElem?_eq_some_iff.mp hv).1; omega
    | some w => exact alike_toStr (h n v w hv hw)

theorem rd_mem {s : Bytes} {i : Nat} {c : UInt8} (h : Scrypt.rd s i = .ok c) : c ∈ s := by
  unfold Scrypt.rd at h
  split at h
  · rename_i x hx; cases h; exact List.mem_of_getElem? hx
  · cases h

theorem unhex_hex (ch : Ch) {s : Bytes} (h : ∀ c ∈ s, Scrypt.isHex c = true) (b : Bytes) : unhex ch s b = Scrypt.unhex s b := by
  unfold unhex Scrypt.unhex
  refine congrArg (fun f => Scrypt.forLoop (s.length / 2) f b) ?_
  funext i input
  cases h1 : Scrypt.rd s (2 * i) with
  | ok c1 =>
    cases h2 : Scrypt.rd s (2 * i + 1) with
    | ok c2 =>
      simp only [Res.ok_bind, nibble_hex ch c1 (h c1 (rd_mem h1)), nibble_hex ch c2 (h c2 (rd_mem h2))]
    | _ => simp only [Res.ok_bind, Res.throw_bind, Res.ub_bind, Res.diverge_bind, Res.exit_bind]
  | _ => simp only [Res.throw_bind, Res.ub_bind, Res.diverge_bind, Res.exit_bind]

theorem scryptOp_run (ch : Ch) (A : Sha) (E : Scrypt.Env) {s : Bytes} (h : ∀ c ∈ s, Scrypt.isHex c = true) :
    (scryptOp ch A E).run s = (Scrypt.op A E).run s := by
  have h' : ∀ c ∈ (if s.length % 2 ≠ 0 then 48 :: s else s), Scrypt.isHex c = true := by
    intro c hc
    split at hc
    · rcases List.mem_cons.mp hc with rfl | hc
      · decide
      · exact h c hc
    · exact h c hc
  funext ret
  simp only [scryptOp, Scrypt.op, unhex_hex ch h']
  generalize (Scrypt.unhex (if s.length % 2 ≠ 0 then 48 :: s else s) (List.replicate 80 0) >>= fun input =>
    Scrypt.core A input E.hash E.B E.X E.pad >>= fun h => Res.ok (Scrypt.hexOut h)) = x
  cases x <;> rfl

theorem takes_reverse (c d : Ch) : TakesAlike c d fun _ => Reverse.op := by
  refine ⟨rfl, fun vs ws hl h => ?_, fun _ _ _ => ⟨rfl, rfl⟩⟩
  simp only [Reverse.op, alike_argAt hl h 0]

theorem takes_encrypt (c d : Ch) (pem : Bytes → Option Crypto.Key) : TakesAlike c d fun _ => Crypto.encryptOp pem := by
  refine ⟨rfl, fun vs ws hl h => ?_, fun _ _ _ => ⟨rfl, rfl⟩⟩
  simp only [Crypto.encryptOp, alike_argAt hl h 0, alike_argAt hl h 1]

theorem takes_scrypt (c d : Ch) (A : Sha) (E : Scrypt.Env) : TakesAlike c d fun ch => scryptOp ch A E := by
  refine ⟨by simp only [scryptOp], fun vs ws hl h => ?_, fun vs st h => ⟨by simp only [scryptOp], ?_⟩⟩
  · simp only [scryptOp, Scrypt.op, alike_argAt hl h 0]
  · have hst : ∀ x ∈ st, Scrypt.isHex x = true := by
      simp only [scryptOp, Scrypt.op] at h
      split at h
      · simp only [Prod.mk.injEq, Res.ok.injEq] at h
        obtain ⟨rfl, h'⟩ := h
        split at h'
        · cases h'
        · exact fun x hx => List.all_eq_true.mp h' x hx
      all_goals cases h
    rw [scryptOp_run c A E hst, scryptOp_run d A E hst]

theorem decrypt_parse (c d : Ch) (pem : Bytes → Option Crypto.Key) {vs ws : List Value} (hl : vs.length = ws.length)
    (h : ∀ (i : Nat) v w, vs[i]? = some v → ws[i]? = some w → Alike c d v w) (ha : ∀ t, vs[1]? = some (.str t) → Ascii t) (o : Crypto.St) :
    (decryptOp c pem).parse o vs = (decryptOp d pem).parse o ws := by
  have key : ∀ t, (Value.argAt ws 1 >>= Value.toStr) = .ok t → hex2str c t = hex2str d t := by
    intro t ht
    rw [← alike_argAt hl h 1] at ht
    refine hex2str_ascii c d (ha t ?_)
    unfold Value.argAt at ht
    have : ((1 : Int) % 18446744073709551616).toNat = 1 := by decide
    rw [this] at ht
    cases hv : vs[1]? with
    | none => rw [hv] at ht; cases ht
    | some v =>
      rw [hv] at ht
      cases v <;> cases ht
      rfl
  simp only [decryptOp, alike_argAt hl h 0, alike_argAt hl h 1]
  cases h0 : Value.argAt ws 0 >>= Value.toStr with
  | ok t =>
    simp only
    cases pem (cstr t) with
    | none => rfl
    | some k =>
      simp only
      cases h1 : Value.argAt ws 1 >>= Value.toStr with
      | ok t => simp only [key t h1]
      | _ => rfl
  | _ => rfl

/-! ### The json operation -/

theorem parseString_eq (c d : Ch) (L : Json.Layout) (s : Bytes) (h : s.length ≤ 1073643498) : parseString c L s = parseString d L s := by
  unfold parseString
  rcases parse_any c d L s h with ⟨w, t, r, j, v, v', _, _, _, h1, h2, _, _, h3⟩ | ⟨h1, h2⟩
  · simp only [h1, h2, Res.ok_bind, if_true, h3]
  · simp only [h1, h2, Res.ok_bind]

theorem getKey_eq (c d : Ch) (E : JsonTool.Env) (data : Bytes) (h : data.length < 1073643498) (t : JsonTool.Tok) : getKey c E data t = getKey d E data t := by
  unfold getKey
  split
  · refine parseString_eq c d _ _ ?_
    rw [List.length_take, List.length_drop, List.length_append, List.length_singleton]
    omega
  · rfl

theorem objectLoop_eq (c d : Ch) (E : JsonTool.Env) (data : Bytes) (h : data.length < 1073643498) (before : Int) :
    ∀ (ts : List JsonTool.Tok) (after : Int) (key : Option JsonTool.Tok) (m : List (Bytes × JsonTool.Tok)),
      objectLoop c E data before after key m ts = objectLoop d E data before after key m ts
  | [], _, _, _ => rfl
  | t :: ts, after, key, m => by
    simp only [objectLoop]
    split
    · exact objectLoop_eq c d E data h before ts _ _ _
    · split
      · rfl
      · cases key with
        | none => exact objectLoop_eq c d E data h before ts _ _ _
        | some k =>
          simp only
          rw [getKey_eq c d E data h k]
          cases getKey d E data k with
          | ok name =>
            simp only [Res.ok_bind]
            exact objectLoop_eq c d E data h before ts _ _ _
          | _ => simp only [Res.throw_bind, Res.ub_bind, Res.diverge_bind, Res.exit_bind]

theorem objectGet_eq (c d : Ch) (E : JsonTool.Env) (data : Bytes) (h : data.length < 1073643498) (a b : Int) (k : Bytes) :
    objectGet c E data a b k = objectGet d E data a b k := by
  unfold objectGet objectTokens
  simp only [objectLoop_eq c d E data h]

theorem subString_le {data x : Bytes} {a b : Int} (h : JsonTool.subString data a b = .ok x) : x.length ≤ data.length := by
  have hc : (cstr data).length ≤ data.length := (List.takeWhile_sublist _).length_le
  unfold JsonTool.subString at h
  simp only at h
  split at h
  · cases h
  · split at h
    · cases h; rw [List.length_drop]; omega
    · cases h; rw [List.length_take, List.length_drop]; omega

theorem elems_str : ∀ {t : Bytes} {js : List JV}, Elems t js → ∀ x, JV.str x ∈ js → x.length < t.length
  | _, _, .one _ ht _, x, hx => by
    cases List.mem_singleton.mp hx
    cases ht with
    | str hb => have := strBody_le hb; simp; omega
  | _, _, .cons _ ht _ hr, x, hx => by
    rcases List.mem_cons.mp hx with rfl | hx
    · cases ht with
      | str hb => have := strBody_le hb; simp; omega
    · have := elems_str hr x hx
      simp
      omega

/-- a string among the arguments is shorter than the text -/
theorem arg_lt (c : Ch) (L : Json.Layout) {s : Bytes} (hlen : s.length ≤ 1073643498) (hs : ShortArgs s) {vs : List Value}
    (h : parse c L s = .ok ⟨true, .arr vs⟩) {i : Nat} {x : Bytes} (hx : vs[i]? = some (.str x)) : x.length < s.length := by
  rcases parse_any .signed c L s hlen with ⟨_, _, _, _, v, v', a1, a2, a3, h1, h2, T0, _, _⟩ | ⟨_, h2⟩
  · rw [h] at h2
    cases h2
    have T := (T0 (hs _ _ _ _ a1 a2 a3)).alike
    clear T0
    rw [parse_signed] at h1
    rcases Json.parse_post L s hlen with ⟨w, t, j, r, y, k1, k2, k3, k4, _, k5⟩ | k1
    · rw [h1] at k1
      cases k1
      have S := k5 (hs _ _ _ _ k2 k3 k4)
      obtain ⟨us, rfl, hl, hT⟩ : ∃ us, v = .arr us ∧ us.length = vs.length ∧ ∀ (i : Nat) a b, us[i]? = some a → vs[i]? = some b → Alike .signed c a b := by
        cases T with
        | arr hl hT => exact ⟨_, rfl, hl, hT⟩
      · have hi : i < us.length := by have := (List.getElem?_eq_some_iff.mp hx).1; omega
        have hu := hT i us[i] (.str x) (List.getElem?_eq_getElem hi) hx
        generalize hz : us[i] = z at hu
        cases hu
        cases S with
        | arr hl' hS =>
          rename_i js
          have hj : i < js.length := by omega
          have hs' := hS i us[i] js[i] (List.getElem?_eq_getElem hi) (List.getElem?_eq_getElem hj)
          rw [hz] at hs'
          generalize hq : js[i] = q at hs'
          cases hs'
          have hm : JV.str x ∈ js := hq ▸ List.getElem_mem hj
          cases k4 with
          | arrNil => simp at hm
          | arr he =>
            have := elems_str he x hm
            rw [k2]
            simp
            omega
    · rw [h1] at k1; cases k1
  · rw [h] at h2; cases h2

theorem alike_argInt {c d : Ch} {vs ws : List Value} (hl : vs.length = ws.length)
    (h : ∀ (i : Nat) v w, vs[i]? = some v → ws[i]? = some w → Alike c d v w) (i : Int) :
    (Value.argAt vs i >>= Value.toInteger) = (Value.argAt ws i >>= Value.toInteger) := by
  unfold Value.argAt
  generalize (i % 18446744073709551616).toNat = n
  cases hv : vs[n]? with
  | none =>
    have : ws[n]? = none := by rw [List.getElem?_eq_none_iff] at hv ⊢; omega
    rw [this]
  | some v =>
    cases hw : ws[n]? with
    | none => rw [List.getElem?_eq_none_iff] at hw; have := (List.getElem?_eq_some_iff.mp hv).1; omega
    | some w => cases h n v w hv hw <;> rfl

theorem argAt_str {vs : List Value} {n : Nat} (hn : n < 18446744073709551616) {x : Bytes} (h : (Value.argAt vs n >>= Value.toStr) = .ok x) :
    vs[n]? = some (.str x) := by
  unfold Value.argAt at h
  have : ((n : Int) % 18446744073709551616).toNat = n := by omega
  rw [this] at h
  cases hv : vs[n]? with
  | none => rw [hv] at h; cases h
  | some v =>
    rw [hv] at h
    cases v <;> cases h
    rfl

theorem bind_congr_ok {α β : Type} {x : Res α} {f g : α → Res β} (h : ∀ a, x = .ok a → f a = g a) : (x >>= f) = (x >>= g) := by
  cases x with
  | ok a => simp only [Res.ok_bind]; exact h a rfl
  | _ => simp only [Res.throw_bind, Res.ub_bind, Res.diverge_bind, Res.exit_bind]

theorem parseArgs_eq (c d : Ch) (E : JsonTool.Env) {vs ws : List Value} (hl : vs.length = ws.length)
    (h : ∀ (i : Nat) v w, vs[i]? = some v → ws[i]? = some w → Alike c d v w) (hb : ∀ x, vs[1]? = some (.str x) → x.length < 1073643498) :
    parseArgs c E vs = parseArgs d E ws := by
  unfold parseArgs
  rw [alike_argAt hl h 0, alike_argInt hl h 2, alike_argInt hl h 3, alike_argInt hl h 4, alike_argAt hl h 4]
  refine bind_congr_ok fun op _ => ?_
  rw [← alike_argAt hl h 1]
  refine bind_congr_ok fun data hd => ?_
  have hd := hb data (argAt_str (n := 1) (by omega) hd)
  refine bind_congr_ok fun b _ => bind_congr_ok fun e _ => ?_
  simp only
  split
  · refine bind_congr_ok fun raw hr => ?_
    rw [parseString_eq c d E.L raw (by have := subString_le hr; omega)]
  · split
    · rfl
    · split
      · rfl
      · split
        · simp only [objectGet_eq c d E data hd]
        · rfl

/-! ### The instances for signed `char` are the other models -/

theorem parseString_signed : parseString .signed = JsonTool.parseString := by
  funext L raw; simp only [parseString, JsonTool.parseString, parse_signed]

theorem objectLoop_signed (E : JsonTool.Env) (data : Bytes) (before : Int) :
    ∀ (ts : List JsonTool.Tok) (a : Int) (k : Option JsonTool.Tok) (m : List (Bytes × JsonTool.Tok)),
      objectLoop .signed E data before a k m ts = JsonTool.objectLoop E data before a k m ts
  | [], a, k, m => by simp only [objectLoop, JsonTool.objectLoop]
  | t :: ts, a, k, m => by
    cases k <;>
    simp only [objectLoop, JsonTool.objectLoop, objectLoop_signed E data before ts, getKey, JsonTool.getKey, parseString_signed]

theorem jsonOp_signed (E : JsonTool.Env) : jsonOp .signed E = JsonTool.op E := by
  have h : parseArgs .signed E = JsonTool.parseArgs E := by
    funext vs
    have h2 : objectGet .signed E = JsonTool.objectGet E := by
      funext d a b k
      simp only [objectGet, JsonTool.objectGet, objectTokens, JsonTool.objectTokens, objectLoop_signed]
      rfl
    simp only [parseArgs, JsonTool.parseArgs, parseString_signed, h2]
  simp only [jsonOp, h]
  rfl

theorem scryptOp_signed (A : Sha) (E : Scrypt.Env) : scryptOp .signed A E = Scrypt.op A E := by
  have h : unhex .signed = Scrypt.unhex := by funext s i; simp only [unhex, Scrypt.unhex, nibble_signed]
  simp only [scryptOp, h]
  rfl

theorem decryptOp_signed (pem : Bytes → Option Crypto.Key) : decryptOp .signed pem = Crypto.decryptOp pem := by
  have h : hex2str .signed = Crypto.hex2str := funext hex2str_signed
  simp only [decryptOp, h]
  rfl

theorem entry_signed {S : Type} (H : Base.Hooks S) (L : Json.Layout) (s : Bytes) :
    opGas .signed H L s = Base.opGas H L s ∧ opRun .signed H L s = Base.opRun H L s := by
  have h : construct .signed H L = Base.construct H L := by
    funext s
    simp only [construct, Base.construct, parse_signed]
  simp only [opGas, opRun, Base.opGas, Base.opRun, h, and_self]

theorem esStep_signed (st : UInt32 × UInt32) (c : UInt8) : esStep .signed st c = Hasher.esStep st c := by
  have h : ∀ c : UInt8, (Ch.val .signed c = 46 ↔ c = 46) ∧ (Ch.val .signed c < 0 ↔ 128 ≤ c) ∧
      (48 ≤ Ch.val .signed c ∧ Ch.val .signed c ≤ 57 ↔ 48 ≤ c ∧ c ≤ 57) ∧ (Ch.val .signed c = 95 ↔ c = 95) ∧
      (65 ≤ Ch.val .signed c ∧ Ch.val .signed c ≤ 90 ↔ 65 ≤ c ∧ c ≤ 90) ∧ (97 ≤ Ch.val .signed c ∧ Ch.val .signed c ≤ 122 ↔ 97 ≤ c ∧ c ≤ 122) ∧
      (¬ 128 ≤ c → (Ch.val .signed c - 65).toNat = c.toNat - 65 ∧ (Ch.val .signed c - 97).toNat = c.toNat - 97) :=
    Scrypt.forall_byte (by decide +kernel)
  obtain ⟨h1, h2, h3, h4, h5, h6, h7⟩ := h c
  obtain ⟨r, d⟩ := st
  unfold esStep Hasher.esStep
  simp only [h1, h2, h3, h4, h5, h6]
  by_cases h46 : c = 46
  · simp only [if_pos h46]
  · by_cases h128 : 128 ≤ c
    · simp only [if_neg h46, if_pos h128]
    · simp only [(h7 h128).1, (h7 h128).2]

theorem es_signed (s : Bytes) : es .signed s = Hasher.es s := by
  have : ∀ (s : Bytes) st, esLoop .signed st s = Hasher.esLoop st s := by
    intro s
    induction s with
    | nil => intro st; rfl
    | cons c cs ih =>
      intro st
      simp only [esLoop, Hasher.esLoop, esStep_signed, ih]
      rfl
  unfold es Hasher.es
  rw [this]
  rfl

end Eni.Plat
