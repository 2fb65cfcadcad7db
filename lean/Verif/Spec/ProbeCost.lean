import Verif.Spec.Json
/-!
# Specification: keys that collide and the text of an object with such keys
-/
namespace Eni.Spec

/-- All texts made of `m` of the two words `bbb0` and `AaAo`. -/
def crowdKeys : Nat → List Bytes
  | 0 => [[]]
  | m + 1 => (crowdKeys m).map ([98, 98, 98, 48] ++ ·) ++ (crowdKeys m).map ([65, 97, 65, 111] ++ ·)

/-- `"k":0` for every key, separated by commas. -/
def crowdMembers : List Bytes → Bytes
  | [] => []
  | [k] => 34 :: (k ++ [34, 58, 48])
  | k :: ks => 34 :: (k ++ 34 :: 58 :: 48 :: 44 :: crowdMembers ks)

/-- `{"k1":0,"k2":0,...}`. -/
def crowdText (ks : List Bytes) : Bytes := 123 :: (crowdMembers ks ++ [125])

end Eni.Spec
