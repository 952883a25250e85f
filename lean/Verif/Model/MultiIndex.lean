import Verif.Model.Outcome

/-!
# Model of `util::MultiIndexHandler<DIM>` (src/util/multi_index_handler.h)

`std::array<int, DIM>` is a `List Int` of length `DIM`.
-/

namespace SplineLib

/-- Members `multi_index_length_` and `current_multi_index_value_` (multi_index_handler.h:152-153). -/
structure MIH where
  len : List Int
  cur : List Int
  deriving DecidableEq, Repr

namespace MIH

/-- `explicit MultiIndexHandler(length)`: all indices zero (multi_index_handler.h:26-30). -/
def mk' (len : List Int) : MIH := ⟨len, len.map fun _ => 0⟩

/-- The loop of `operator++` (multi_index_handler.h:40-50): reset to 0 and carry on while the current index is at the
end (or the length is 0), otherwise increment and stop. The loop over `i` is recursion on the two arrays. -/
def incrL : List Int → List Int → List Int
  | l :: ls, c :: cs => if c = l - 1 ∨ l = 0 then 0 :: incrL ls cs else (c + 1) :: cs
  | _, cs => cs

/-- `operator++` (multi_index_handler.h:40-50). -/
def incr (h : MIH) : MIH := { h with cur := incrL h.len h.cur }

/-- The loop of `operator--` (multi_index_handler.h:58-68). -/
def decrL : List Int → List Int → List Int
  | l :: ls, c :: cs => if c = 0 then (l - 1) :: decrL ls cs else (c - 1) :: cs
  | _, cs => cs

/-- `operator--` (multi_index_handler.h:58-68). -/
def decr (h : MIH) : MIH := { h with cur := decrL h.len h.cur }

/-- `operator+(int i)`: *mutates* the handler, incrementing `i` times (multi_index_handler.h:70-75); nothing happens
for negative `i`. -/
def plus (h : MIH) (i : Int) : MIH := incr^[i.toNat] h

/-- `operator-(int i)`: *mutates* the handler (multi_index_handler.h:77-82). -/
def minus (h : MIH) (i : Int) : MIH := decr^[i.toNat] h

/-- `SetIndices` (multi_index_handler.h:84-88). -/
def setIndices (h : MIH) (ix : List Int) : MIH := { h with cur := ix }

/-- `operator[](int i)` (multi_index_handler.h:32-38). -/
def at' (h : MIH) (i : Nat) : M Int := getN h.cur i

/-- `GetDifferenceIndices` (multi_index_handler.h:102-108). -/
def differenceIndices (h : MIH) : List Int := List.zipWith (fun l c => l - c - 1) h.len h.cur

/-- The inner loop of `Get1DIndex(length, indices)`: multiply by the lengths of all lower directions
(multi_index_handler.h:121-124); `done` holds the already passed lengths. -/
def oneDLoop : List Int → List Int → List Int → Int
  | done, l :: ls, i :: is => done.foldl (· * ·) i + oneDLoop (l :: done) ls is
  | _, _, _ => 0

/-- `Get1DIndex(length, indices)` (multi_index_handler.h:118-128). -/
def oneD (len ix : List Int) : Int := oneDLoop [] len ix

/-- `Get1DIndex()` (multi_index_handler.h:110-112). -/
def get1D (h : MIH) : Int := oneD h.len h.cur

/-- `Get1DLength()` (multi_index_handler.h:130-136). -/
def length1D (h : MIH) : Int := h.len.foldl (· * ·) 1

/-- `ExtractDimension(dimension)` (multi_index_handler.h:138-153): the 1D index in the box without the given direction. The
arrays `indices`/`length` there are the current ones with entry `dimension` removed and a zero appended
(for `dimension < DIM`). -/
def extractDimension (h : MIH) (d : Nat) : Int :=
  oneD (h.len.eraseIdx d ++ [0]) (h.cur.eraseIdx d ++ [0])

/-- One run of `while (!reached) { (*this)++; if (Get1DIndex() == index) reached = true; }`
(multi_index_handler.h:90-96) as a big-step relation: `Set1D h i h'` means that the loop started in state `h` terminates
in state `h'`. -/
inductive Set1D : MIH → Int → MIH → Prop
  | stop (h : MIH) (i : Int) : h.incr.get1D = i → Set1D h i h.incr
  | again (h : MIH) (i : Int) (h' : MIH) : h.incr.get1D ≠ i → Set1D h.incr i h' → Set1D h i h'

end MIH
end SplineLib
