import Verif.Model.Strings
/-!
# Model of `/repo/test_helper.go`

A `*testing.T` is what it has logged and whether the test is marked as failed; `w` is everything else, which the code under test may change. How `fmt` shows a
value is a parameter. `t.Helper` only changes which line number is printed and is left out. Unlike the rest of the library the code here tells
panics with nil from other panics, and `runtime.Goexit` (`t.FailNow`, `t.SkipNow`) from both; go.mod asks for go 1.18, where `panic(nil)` makes `recover`
return nil.
-/
namespace Stl4go
variable {T W V : Type}

/-- A test that is running (`t *testing.T`, `/repo/test_helper.go:8`) and the rest of the program. A text is `none` if its format did not fit. -/
structure TestRun (W : Type) where
  logged : List (Option (List Char))
  failed : Bool
  w : W
deriving DecidableEq

/-- How a call ends: it returns, panics with a value (`none` is nil), leaves the goroutine by `runtime.Goexit`, or never ends (`/repo/test_helper.go:83`). -/
inductive Ended (V W : Type) where
  | returned (s : TestRun W)
  | panicked (v : Option V) (s : TestRun W)
  | exited (s : TestRun W)
  | hung
deriving DecidableEq

/-- `t.Errorf`, `/repo/test_helper.go:10`: `t.Logf`, then `t.Fail`. -/
def TestRun.errorf (t : TestRun W) (format : List Char) (args : List (List Char)) : TestRun W :=
  { t with logged := t.logged ++ [sprintf format args], failed := true }

/-- `report`, `/repo/test_helper.go:8-11`. -/
def report (t : TestRun W) (msg : List Char) : TestRun W := t.errorf "Wrong: %v\n".toList [msg]

/-- `report` with a text made by `fmt.Sprintf`, `/repo/test_helper.go:15`; if that format did not fit, the text is not known. -/
def reportText (t : TestRun W) : Option (List Char) → TestRun W
  | some msg => report t msg
  | none => { t with logged := t.logged ++ [none], failed := true }

/-- `reportMismatch`, `/repo/test_helper.go:13-16`; `shows` is how `fmt` shows a `T`. -/
def reportMismatch (shows : T → List Char) (t : TestRun W) (a : T) (op : List Char) (b : T) : TestRun W :=
  reportText t (sprintf "%v %v %v".toList [shows a, op, shows b])

/-- `expectEq`, `/repo/test_helper.go:18-23`. -/
def expectEq [GoEq T] (shows : T → List Char) (t : TestRun W) (a b : T) : TestRun W :=
  if !GoEq.eq a b then reportMismatch shows t a "==".toList b else t

/-- `expectNe`, `/repo/test_helper.go:25-30`. -/
def expectNe [GoEq T] (shows : T → List Char) (t : TestRun W) (a b : T) : TestRun W :=
  if !(!GoEq.eq a b) then reportMismatch shows t a "!=".toList b else t

/-- `expectLt`, `/repo/test_helper.go:32-37`. -/
def expectLt [GoOrd T] (shows : T → List Char) (t : TestRun W) (a b : T) : TestRun W :=
  if !GoOrd.lt a b then reportMismatch shows t a "<".toList b else t

/-- `expectGt`, `/repo/test_helper.go:39-44`; `a > b` is `b < a`. -/
def expectGt [GoOrd T] (shows : T → List Char) (t : TestRun W) (a b : T) : TestRun W :=
  if !GoOrd.lt b a then reportMismatch shows t a ">".toList b else t

/-- `expectLe`, `/repo/test_helper.go:46-51`; `a <= b` is `a < b || a == b`, also for floats. -/
def expectLe [GoOrd T] (shows : T → List Char) (t : TestRun W) (a b : T) : TestRun W :=
  if !(GoOrd.lt a b || GoEq.eq a b) then reportMismatch shows t a "<=".toList b else t

/-- `expectGe`, `/repo/test_helper.go:53-58`. -/
def expectGe [GoOrd T] (shows : T → List Char) (t : TestRun W) (a b : T) : TestRun W :=
  if !GoOrd.ge a b then reportMismatch shows t a ">=".toList b else t

/-- How `%v` shows a bool (`/repo/test_helper.go:15`). -/
def showBool : Bool → List Char
  | true => "true".toList
  | false => "false".toList

/-- `expectTrue`, `/repo/test_helper.go:60-65`. -/
def expectTrue (t : TestRun W) (actual : Bool) : TestRun W :=
  if !actual then reportMismatch showBool t actual "==".toList true else t

/-- `expectFalse`, `/repo/test_helper.go:67-72`. -/
def expectFalse (t : TestRun W) (actual : Bool) : TestRun W :=
  if actual then reportMismatch showBool t actual "==".toList false else t

/-- The deferred function of `expectPanic`, `/repo/test_helper.go:76-81`, given what `recover` returns. -/
def expectPanicDeferred (t : TestRun W) (r : Option V) : TestRun W :=
  match r with
  | none => report t "din't panic".toList
  | some _ => t

/-- `expectPanic`, `/repo/test_helper.go:74-84`. The deferred function runs however `f` ends; its call of `recover` ends a panic (`expectPanic` then
returns), returns nil if there is none, and does not stop `runtime.Goexit`. -/
def expectPanic (f : TestRun W → Ended V W) (t : TestRun W) : Ended V W :=
  match f t with
  | .returned s => .returned (expectPanicDeferred s (none : Option V))
  | .panicked v s => .returned (expectPanicDeferred s v)
  | .exited s => .exited (expectPanicDeferred s (none : Option V))
  | .hung => .hung

end Stl4go
