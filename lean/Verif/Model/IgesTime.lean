import Verif.Model.Iges

/-!
# Time stamps of IGES files (src/io/iges_writer.cc:301-306)
-/

namespace SplineLib
namespace Iges
open Prn

/-- The fields of `struct tm` that are used; `year` counts from 1900, `mon` from 0. -/
structure Tm where
  year : ℤ
  mon : ℤ
  mday : ℤ
  hour : ℤ
  min : ℤ
  sec : ℤ
  deriving DecidableEq

/-- The text in `GetTime()` (iges_writer.cc:302-305) before `GetHollerithFormat`. -/
def stamp (t : Tm) : List Char :=
  intText ((t.year + 1900) * 10000 + (t.mon + 1) * 100 + t.mday) ++ '.' :: intText (t.hour * 10000 + t.min * 100 + t.sec)

end Iges
end SplineLib
