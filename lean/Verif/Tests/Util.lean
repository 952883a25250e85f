import Verif.Model.MultiIndex
import Verif.Model.ConverterLog
import Verif.Model.Xml
import Verif.Tests.Change
import Mathlib.Algebra.Order.Floor.Ring
import Mathlib.Data.Rat.Floor

/-!
# Unit tests of `test/util`, run on the model

`Set1DIndex` (multi_index_handler_test.cc:64-68) is run as the increments it consists of. Norms (vector_utils_test.cc:37-40, 52-55) are compared
up to twelve decimal places.
-/

namespace SplineLib
namespace Tests
attribute [local instance] fineSqrt

/-! ## multi_index_handler_test.cc -/

/-- One and two dimensions (multi_index_handler_test.cc:33-68). -/
example : (MIH.mk' [10]).get1D = 0 ∧ ((MIH.mk' [10]).setIndices [5]).get1D = 5 ∧ (MIH.mk' [10, 3]).get1D = 0 ∧
    ((MIH.mk' [10, 3]).setIndices [3, 2]).get1D = 23 ∧ ((MIH.mk' [10, 3]).plus 23).cur = [3, 2] := by decide +kernel

/-- Three dimensions (multi_index_handler_test.cc:80-114). -/
example : (MIH.mk' [4, 3, 5]).get1D = 0 ∧ ((MIH.mk' [4, 3, 5]).setIndices [2, 1, 2]).get1D = 30 ∧
    ((MIH.mk' [4, 3, 5]).plus 7).get1D = 7 ∧ ((MIH.mk' [4, 3, 5]).plus 7).cur = [3, 1, 0] ∧
    ((MIH.mk' [4, 3, 5]).plus 7).differenceIndices = [0, 1, 4] ∧ (MIH.mk' [4, 3, 5]).length1D = 60 ∧
    ((MIH.mk' [4, 3, 5]).setIndices [2, 1, 3]).extractDimension 1 = 14 := by decide +kernel

/-! ## string_operations_test.cc -/

/-- Splitting, comparing, trimming (string_operations_test.cc:27-49). -/
example : (Str.split "a string to be splitted at spaces".toList ' ').length = 7 ∧
    (Str.split "a string to be splitted at spaces".toList ' ')[3]? = some "be".toList ∧
    Str.startsWith "hello world".toList "hello".toList = true ∧ Str.startsWith "Oh hello".toList "hello".toList = false ∧
    Str.startsWith "hella".toList "hello".toList = false ∧ Str.endsWith "hello world".toList "hello".toList = false ∧
    Str.endsWith "Oh hello".toList "hello".toList = true ∧ Str.endsWith "bello".toList "hello".toList = false ∧
    Str.trim "[ 7.88  ] ".toList = "7.88".toList := by decide +kernel

/-- Numbers (string_operations_test.cc:51-77). -/
example : Str.stringToDouble ℚ "8,97".toList = .error (.thrown .invalidArgument) ∧
    Str.delimitedStringToVector ℚ "6.0,5.5;7.0,7,10.10;0.99,1,8.8,9;".toList =
      .ok [6, 5.5, 7, 7, 10.1, 0.99, 1, 8.8, 9] ∧
    Log.readRow ℚ "6.7 9.9 7.77 0.11".toList = .ok [6, 9, 7, 0] ∧
    Xml.numbers ℚ "6.7 9.9 7.77 0.11".toList = .ok [6.7, 9.9, 7.77, 0.11] := by decide +kernel

/-! ## vector_utils_test.cc -/

/-- Differences, products, filtering (vector_utils_test.cc:42-50, 57-85). -/
example : Vec.difference ([2, 3, 4, 5] : List ℚ) [3, 2, 1, 0] = .ok [-1, 1, 3, 5] ∧
    Vec.difference ([4.5, 6.7, 8.9] : List ℚ) [3.2, 4.3, 5.4] = .ok [1.3, 2.4, 3.5] ∧
    Vec.scalarProduct ([2, 3, 4, 5] : List ℚ) [3, 2, 1, 0] = .ok 16 ∧
    Vec.scalarProduct ([4.5, 6.7, 8.9] : List ℚ) [3.2, 4.3, 5.4] = .ok 91.27 ∧
    Vec.scale ([2, 3, 4, 5] : List ℚ) 2 = [4, 6, 8, 10] ∧ Vec.scale ([4.5, 6.7, 8.9] : List ℚ) 0.5 = [2.25, 3.35, 4.45] ∧
    Vec.crossProduct ([4.5, 6.7, 8.9] : List ℚ) [3.2, 4.3, 5.4] = .ok [-2.09, 4.18, -2.09] ∧
    Vec.filter ([2, 3, 4, 5] : List ℚ) [1, 2] = .ok [3, 4] ∧
    Vec.filter ([4.5, 6.7, 8.9] : List ℚ) [2, 3] = .error (.thrown .runtimeError) := by decide +kernel

/-- Norms and distances (vector_utils_test.cc:37-40, 52-55). -/
example : Phys.twoNorm ([3, 2, 1, 0] : List ℚ) = HasSqrt.sqrt 14 ∧ Phys.twoNorm ([4.5, 6.7, 8.9] : List ℚ) = HasSqrt.sqrt 144.35 ∧
    Vec.distance ([2, 3, 4, 5] : List ℚ) [3, 2, 1, 0] = .ok 6 ∧
    Vec.distance ([4.5, 6.7, 8.9] : List ℚ) [3.2, 4.3, 5.4] = .ok (HasSqrt.sqrt 19.7) := by decide +kernel

end Tests
end SplineLib
