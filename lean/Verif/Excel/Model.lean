import Mathlib.Data.List.Basic
/-! # Model of formulas in the spreadsheets of `io/excel.py`

Simplified: a formula is a function of the values of its arguments (the text with `{}` that Python evaluates);
names of rows and columns are of any types, cells that were never set have the value `nan`; an exception is `none`. -/
namespace SC.Excel

variable {R C V : Type} [DecidableEq R] [DecidableEq C]

/-- A formula and its arguments, excel.py:155 and 165. -/
structure Formula (A V : Type) where
  f : List V → V
  args : List A

/-- A DataFrame, excel.py:48-80: the frame and the three ordered dictionaries of formulas. -/
structure Sheet (R C V : Type) where
  rows : List R
  cols : List C
  cell : R → C → V
  rowPriority : Bool
  colF : List (C × Formula C V)
  rowF : List (R × Formula R V)
  cellF : List ((R × C) × Formula (R × C) V)

/-- A key is added at the end when it is new. -/
def addKey {A : Type} [DecidableEq A] (l : List A) (a : A) : List A := if a ∈ l then l else l ++ [a]

/-- Setting an item of an OrderedDict. -/
def setItem {A B : Type} [DecidableEq A] : List (A × B) → A → B → List (A × B)
  | [], a, b => [(a, b)]
  | (x, y) :: l, a, b => if x = a then (a, b) :: l else (x, y) :: setItem l a b

/-- _addvalue, excel.py:114-115. -/
def setCell (s : Sheet R C V) (r : R) (c : C) (v : V) : Sheet R C V :=
  { s with rows := addKey s.rows r, cols := addKey s.cols c,
           cell := fun r' c' => if r' = r ∧ c' = c then v else s.cell r' c' }

/-- _apply_column_formula without indices, excel.py:187-190 with 124-129: all rows at once. -/
def applyCol (s : Sheet R C V) (e : C × Formula C V) : Option (Sheet R C V) :=
  if e.2.args.all (· ∈ s.cols) then
    some { s with cols := addKey s.cols e.1,
                  cell := fun r c => if c = e.1 ∧ r ∈ s.rows then e.2.f (e.2.args.map (s.cell r)) else s.cell r c }
  else none

/-- _apply_row_formula without columns, excel.py:196-199 with 117-122. -/
def applyRow (s : Sheet R C V) (e : R × Formula R V) : Option (Sheet R C V) :=
  if e.2.args.all (· ∈ s.rows) then
    some { s with rows := addKey s.rows e.1,
                  cell := fun r c => if r = e.1 ∧ c ∈ s.cols then e.2.f (e.2.args.map (s.cell · c)) else s.cell r c }
  else none

/-- _apply_cell_formula, excel.py:183-185. -/
def applyCell (s : Sheet R C V) (e : (R × C) × Formula (R × C) V) : Option (Sheet R C V) :=
  if e.2.args.all (fun a => a.1 ∈ s.rows ∧ a.2 ∈ s.cols) then
    some (setCell s e.1.1 e.1.2 (e.2.f (e.2.args.map fun a => s.cell a.1 a.2)))
  else none

/-- A loop over formulas. -/
def loop {E : Type} (step : Sheet R C V → E → Option (Sheet R C V)) : Sheet R C V → List E → Option (Sheet R C V)
  | s, [] => some s
  | s, e :: l => (step s e).bind (loop step · l)

/-- apply_formulae, excel.py:238-245. -/
def applyAll (s : Sheet R C V) : Option (Sheet R C V) :=
  let s1 :=
    if s.rowPriority then (loop applyCol s s.colF).bind (loop applyRow · s.rowF)
    else (loop applyRow s s.rowF).bind (loop applyCol · s.colF)
  s1.bind (loop applyCell · s.cellF)

/-- What a user can do. -/
inductive Op (R C V : Type)
  | value (r : R) (c : C) (v : V)
  | row (r : R) (data : List (C × V))
  | column (c : C) (data : List (R × V))
  | colFormula (c : C) (F : Formula C V)
  | rowFormula (r : R) (F : Formula R V)
  | cellFormula (r : R) (c : C) (F : Formula (R × C) V)

/-- addvalue, addrow, addcolumn (excel.py:96-109, data in dictionaries) with _remove_formulae (135-145), and the three methods for formulas
(147-181).  `none` when it raises. -/
def step (s : Sheet R C V) : Op R C V → Option (Sheet R C V)
  | .value r c v => applyAll (setCell s r c v)
  | .row r data =>
    applyAll (data.foldl (fun s (cv : C × V) => setCell s r cv.1 cv.2) { s with cellF := s.cellF.filter (·.1.1 ≠ r) })
  | .column c data =>
    applyAll (data.foldl (fun s (rv : R × V) => setCell s rv.1 c rv.2) { s with cellF := s.cellF.filter (·.1.2 ≠ c) })
  | .colFormula c F =>
    if c ∈ F.args then none
    else (applyCol { s with colF := setItem s.colF c F } (c, F)).bind applyAll
  | .rowFormula r F =>
    if r ∈ F.args then none
    else (applyRow { s with rowF := setItem s.rowF r F } (r, F)).bind applyAll
  | .cellFormula r c F =>
    if F.args.any (fun a => a.1 = r ∨ a.2 = c) then none
    else (applyCell { s with cellF := setItem s.cellF (r, c) F } ((r, c), F)).bind applyAll

/-- The dictionary of column formulas after an attempt: it is set before the formula is applied (excel.py:155-156). -/
def colFAfter (s : Sheet R C V) (c : C) (F : Formula C V) : List (C × Formula C V) :=
  if c ∈ F.args then s.colF else setItem s.colF c F

/-- Steps one after the other. -/
def steps : Sheet R C V → List (Op R C V) → Option (Sheet R C V)
  | s, [] => some s
  | s, o :: l => (step s o).bind (steps · l)

/-- A new frame. -/
def empty (nan : V) (rowPriority : Bool) : Sheet R C V := ⟨[], [], fun _ _ => nan, rowPriority, [], [], []⟩

end SC.Excel
