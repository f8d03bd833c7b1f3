/-!
# Output streams: state and the primitive operations

Models the private and public operations of `ofstream` that decide where separators and newlines
go.  The file is the text written so far; I/O errors, the retries after an interrupted system call
and flushing are not modelled.
-/

namespace Verif.Ostream

/-- Which of the two separator buffers the current-separator pointer `sepCur$` designates.
    (`sepSetCur$` is only ever called with the address of `separator$` or of `tupleSeparator$`:
    libcfa/src/fstream.cfa lines 41, 55; libcfa/src/iostream.cfa lines 364, 366, 372, 374.) -/
inductive Cur
  | regular
  | tuple
deriving DecidableEq, Repr

/-- An output stream: the text written and the fields set at libcfa/src/fstream.cfa lines 34-44. -/
structure Os where
  out : List Char
  sepDefault : Bool
  sepOnOff : Bool
  nlOnOff : Bool
  prt : Bool
  sawNL : Bool
  cur : Cur
  separator : List Char
  tupleSeparator : List Char
deriving DecidableEq, Repr

/-- A stream just opened: libcfa/src/fstream.cfa lines 34-44. -/
def Os.open : Os where
  out := []
  sepDefault := true
  sepOnOff := false
  nlOnOff := true
  prt := false
  sawNL := false
  cur := .regular
  separator := [' ']
  tupleSeparator := [',', ' ']

/-- `fmt` with the characters its format produces: the text is written, the statement has printed
    something, and the separator is reset.  libcfa/src/fstream.cfa lines 161-182 (169, 179, 180). -/
def fmt (os : Os) (text : List Char) : Os :=
  { os with out := os.out ++ text, prt := true, sepOnOff := os.sepDefault }

/-- `sepGetCur$`: libcfa/src/fstream.cfa line 54. -/
def sepGetCur (os : Os) : List Char :=
  match os.cur with
  | .regular => os.separator
  | .tuple => os.tupleSeparator

/-- `sepPrt$` as a test: libcfa/src/fstream.cfa line 51 (the value returned). -/
def sepPrt (os : Os) : Bool := os.sepOnOff

/-- `sepPrt$` as an effect: libcfa/src/fstream.cfa line 51 (`setNL$( os, false )`). -/
def clearNL (os : Os) : Os := { os with sawNL := false }

/-- `if ( sepPrt$( os ) ) fmt( os, "%s", sepGetCur$( os ) )`: the first line of every numeric
    output operator, e.g. libcfa/src/iostream.cfa lines 45, 87, 151, 403. -/
def sepBefore (os : Os) : Os :=
  if sepPrt os then fmt (clearNL os) (sepGetCur os) else clearNL os

/-- `nosep`: libcfa/src/fstream.cfa line 72. -/
def nosep (os : Os) : Os := { os with sepOnOff := false }

/-- `sep`: libcfa/src/fstream.cfa line 71. -/
def sep (os : Os) : Os := { os with sepOnOff := !os.sawNL }

/-- `sepReset$`: libcfa/src/fstream.cfa line 52. -/
def sepReset (os : Os) : Os := { os with sepOnOff := os.sepDefault }

end Verif.Ostream
