import Verif.Model.Vector
/-!
# Specification of `Vector` histories by mathematical sequences
-/
namespace Eni.Spec
variable {α : Type}

/-- Effect and report of an operation on the pair of sequences `(v, w)`. -/
def vstep (dflt : α) (s : List α × List α) : VOp α → (List α × List α) × VRet α
  | .pushBack a => ((s.1 ++ [a], s.2), .done)
  | .popBack => ((s.1.dropLast, s.2), match s.1.getLast? with | some a => .val a | none => .done)
  | .insertN i n a =>
    if i ≤ s.1.length then ((s.1.take i ++ List.replicate n a ++ s.1.drop i, s.2), .done) else (s, .exc .invalidVectorIndex)
  | .insertRange i xs =>
    if i ≤ s.1.length then ((s.1.take i ++ xs ++ s.1.drop i, s.2), .done) else (s, .exc .invalidVectorIndex)
  | .erase f l =>
    if f < l ∧ l < s.1.length then ((s.1.take f ++ s.1.drop l, s.2), .done) else (s, .exc .invalidVectorIndex)
  | .erase1 i =>
    if i + 1 < s.1.length then ((s.1.eraseIdx i, s.2), .done) else (s, .exc .invalidVectorIndex)
  | .resize n => ((s.1.take n ++ List.replicate (n - s.1.length) dflt, s.2), .done)
  | .resizeA n a => ((s.1.take n ++ List.replicate (n - s.1.length) a, s.2), .done)
  | .reserve _ => (s, .done)
  | .assignN n a => ((List.replicate n a, s.2), .done)
  | .assignRange xs => ((xs, s.2), .done)
  | .assignSelf => (s, .done)
  | .clear => (([], s.2), .done)
  | .at_ i => (s, match s.1[i]? with | some a => .val a | none => .exc .invalidVectorIndex)
  | .index i => (s, match s.1[i]? with | some a => .val a | none => .done)
  | .size => (s, .size s.1.length)
  | .swap => ((s.2, s.1), .done)
  | .assignVec => ((s.2, s.2), .done)
  | .copy => ((s.1, s.1), .done)

/-- Sizes for which the byte counts computed by the code do not exceed 64 bits. -/
def Fits (sz n : Nat) : Prop := sz * (2 * n) < 18446744073709551616

instance (sz n : Nat) : Decidable (Fits sz n) := inferInstanceAs (Decidable (_ < _))

/-- Preconditions stated by the interface (`pop_back` on a non-empty vector, `operator[]` within range), and the size limit. -/
def VPre (sz : Nat) (s : List α × List α) : VOp α → Prop
  | .pushBack _ => Fits sz (s.1.length + 1)
  | .popBack => s.1 ≠ []
  | .insertN _ n _ => Fits sz (s.1.length + n)
  | .insertRange _ xs => Fits sz (s.1.length + xs.length)
  | .erase1 i => i < 18446744073709551616
  | .resize n => Fits sz n
  | .resizeA n _ => Fits sz n
  | .reserve n => Fits sz n
  | .assignN n _ => Fits sz n
  | .assignRange xs => Fits sz xs.length
  | .index i => i < s.1.length
  | _ => True

/-- Operations that may need memory: those that make the sequence longer or ask for capacity. -/
def MayAlloc (s : List α × List α) : VOp α → Prop
  | .pushBack _ => True
  | .insertN i n _ => i ≤ s.1.length ∧ 0 < n
  | .insertRange i xs => i ≤ s.1.length ∧ xs ≠ []
  | .resize n => s.1.length < n
  | .resizeA n _ => s.1.length < n
  | .reserve n => s.1.length < n
  | .assignN n _ => s.1.length < n
  | .assignRange xs => s.1.length < xs.length
  | .assignVec => s.1.length < s.2.length
  | _ => False

/-- A history of the specification: an operation has its specified effect, or memory was refused, `BadAlloc<NoMemory>` is reported and
nothing changes. -/
inductive VHist (dflt : α) : List α × List α → List (VOp α × Bool) → List α × List α → List (VRet α) → Prop
  | nil (s) : VHist dflt s [] s []
  | step {s op g ops s' rs} (h : VHist dflt (vstep dflt s op).1 ops s' rs) :
      VHist dflt s ((op, g) :: ops) s' ((vstep dflt s op).2 :: rs)
  | refused {s op ops s' rs} (ha : MayAlloc s op) (h : VHist dflt s ops s' rs) :
      VHist dflt s ((op, false) :: ops) s' (.exc .noMemory :: rs)

/-- Every operation meets its precondition, whichever allocations are refused. -/
inductive VPres (sz : Nat) (dflt : α) : List α × List α → List (VOp α × Bool) → Prop
  | nil (s) : VPres sz dflt s []
  | cons {s op g ops} (hp : VPre sz s op) (h1 : VPres sz dflt (vstep dflt s op).1 ops)
      (h2 : g = false → MayAlloc s op → VPres sz dflt s ops) : VPres sz dflt s ((op, g) :: ops)

/-- The deterministic history when every allocation is granted. -/
def vsteps (dflt : α) (s : List α × List α) : List (VOp α) → (List α × List α) × List (VRet α)
  | [] => (s, [])
  | op :: ops =>
    let (s, r) := vstep dflt s op
    let (s, rs) := vsteps dflt s ops
    (s, r :: rs)

/-- What a caller can observe of a vector: its size, and `at(i)` for every index. -/
def Contents (v : Vec α) (xs : List α) : Prop :=
  v.size = xs.length ∧ ∀ i, Vec.at_ v i = match xs[i]? with | some a => .ok (v, .val a) | none => .ok (v, .exc .invalidVectorIndex)

/-- Vectors obtained from an empty vector by some history of operations within their preconditions. -/
def _root_.Eni.Vec.Reachable (cfg : Vec.Cfg α) (v : Vec α) : Prop :=
  ∃ ops w rs, VPres cfg.sz cfg.dflt ([], []) ops ∧ Vec.run cfg (Vec.empty, Vec.empty) ops = .ok ((v, w), rs)

end Eni.Spec
