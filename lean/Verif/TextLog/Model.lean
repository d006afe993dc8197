import Verif.Py.Dict
/-! # Model of the text and image files of `io/ascii.py` and `io/edf.py` and of the image stacks of `process/edfregulargrid.py` -/
namespace SC.TextLog

abbrev Str := List Char

/-- A line in front of the others. -/
def consHead (c : Char) : List Str → List Str
  | [] => [[c]]
  | l :: ls => (c :: l) :: ls

/-- `re.split("\r\n|\r|\n", text)`, ascii.py:90. The first alternative that matches is taken: a newline after a return ends the
same line. -/
def splitLines : Str → List Str
  | [] => [[]]
  | c :: s =>
    if c = '\r' then (if s.head? = some '\n' then splitLines s else [] :: splitLines s)
    else if c = '\n' then [] :: splitLines s
    else consHead c (splitLines s)

/-- `"\n".join(lines)`, ascii.py:75. -/
def join (sep : Str) : List Str → Str
  | [] => []
  | [l] => l
  | l :: ls => l ++ sep ++ join sep ls

/-- `Writer.writelines`, ascii.py:73-75: the new content of the file; without a file nothing is written. -/
def writeLines (file : Option Str) (lines : List Str) : Option Str := file.map fun c => c ++ (join ['\n'] lines ++ ['\n'])

/-- `self.tab * tab`, ascii.py:80 and 84. -/
def indent (width tab : Nat) : Str := List.replicate (width * tab) ' '

/-- `Logger.writelines`, ascii.py:83-87: the content of the file and the printed lines. -/
def logLines (width : Nat) (st : Option Str × List Str) (lines : List Str) (tab : Nat) : Option Str × List Str :=
  let ls := lines.map fun l => indent width tab ++ l
  (writeLines st.1 ls, st.2 ++ ls)

/-- `Logger.write`, ascii.py:89-91. -/
def log (width : Nat) (st : Option Str × List Str) (text : Str) (tab : Nat) : Option Str × List Str :=
  logLines width st (splitLines text) tab

inductive Mode
  | write
  | append

/-- `Writer.__enter__`, ascii.py:57-63: `old` is the content of the file, `named` tells whether there is a file name. -/
def enter (named : Bool) (mode : Mode) (old : Option Str) : Option Str :=
  if named then some (match mode with
    | .write => []
    | .append => old.getD [])
  else none

/-- A session with a logger. -/
def session (width : Nat) (named : Bool) (mode : Mode) (old : Option Str) (msgs : List (Str × Nat)) : Option Str × List Str :=
  msgs.foldl (fun st m => log width st m.1 m.2) (enter named mode old, [])

/-- `saveedf`, edf.py:62-69. Writing may fail (`writes`), after the old file is removed. -/
def saveEdf {Img : Type} (files : Py.Dict Str Img) (name : Str) (img : Img) (overwrite writes : Bool) : Bool × Py.Dict Str Img :=
  match Py.Dict.get? files name with
  | some _ =>
    if overwrite then
      let files := files.filter fun p => p.1 ≠ name
      if writes then (true, Py.Dict.set files name img) else (false, files)
    else (false, files)
  | none => if writes then (true, Py.Dict.set files name img) else (false, files)

/-- `name.split(".")`. -/
def splitDot : Str → List Str
  | [] => [[]]
  | c :: s => if c = '.' then [] :: splitDot s else consHead c (splitDot s)

/-- `os.path.basename`. -/
def basename (s : Str) : Str := (s.reverse.takeWhile (fun c => c != '/')).reverse

/-- The labels of the images, edfregulargrid.py:30. -/
def label (filename : Str) : Str := join ['.'] (splitDot (basename filename)).dropLast

/-- `EDFRegularGrid.values`, edfregulargrid.py:38-41 and 48-50: `np.stack` raises when the shapes differ or when there are no
files. Images are lists of rows. -/
def stack {α : Type} (read : Str → Option (List (List α))) (filenames : List Str) : Option (List (List (List α))) :=
  match filenames.mapM read with
  | none => none
  | some [] => none
  | some (im :: ims) => if ims.all fun i => i.map List.length = im.map List.length then some (im :: ims) else none

end SC.TextLog
