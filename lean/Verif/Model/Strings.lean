import Verif.Model.BuiltinSet
/-!
# Model of `/repo/helper.go` and of the `String` methods

Strings are lists of characters. What `reflect` calls the type `*T` and how `fmt` shows an element are parameters. Of `fmt.Sprintf` the model has
what the format strings in `/repo` use: text, and the verbs `%s` and `%v`, each of which shows the next argument; a format that does not fit its arguments,
for which `fmt` writes an error into the result, has no result here. A slice is shown as its elements, separated by spaces, in brackets.
-/
namespace Stl4go
variable {K : Type}

/-- `fmt.Sprintf`, `/repo/builtin_set.go:105`, for arguments that are shown as `args`. -/
def sprintf : (format : List Char) → (args : List (List Char)) → Option (List Char)
  | [], [] => some []
  | [], _ :: _ => none
  | [c], args => if c = '%' then none else (sprintf [] args).map (c :: ·)
  | c :: d :: rest, args =>
    if c = '%' then
      if d = 's' ∨ d = 'v' then
        match args with
        | a :: args => (sprintf rest args).map (a ++ ·)
        | [] => none
      else none
    else (sprintf (d :: rest) args).map (c :: ·)

/-- How `%v` shows a slice whose elements are shown as `words` (`/repo/builtin_set.go:105`). -/
def showSlice : (words : List (List Char)) → List Char
  | [] => "[]".toList
  | w :: words => '[' :: w ++ words.flatMap (fun w => ' ' :: w) ++ [']']

/-- `nameOfType`, `/repo/helper.go:8-11`; `ptrName` is what `reflect.TypeOf(t).String()` gives for a `t` of type `*T`. Slicing an empty string from 1 on
panics. (The first character of the name of a pointer type is `*`, one byte.) -/
def nameOfType (ptrName : List Char) : Outcome (List Char) :=
  if 1 ≤ ptrName.length then .ret (ptrName.drop 1) else .panic

/-- `nameOfType` in a program with maps (`/repo/builtin_set.go:105`). -/
def nameOfTypeM (ptrName : List Char) : GoM (MWorld K) (List Char) := fun w =>
  match nameOfType ptrName with
  | .ret n => .ok n w
  | .panic => .panic w
  | .diverge => .diverge

/-- `BuiltinSet.String`, `/repo/builtin_set.go:104-106`; `shows k` is how `fmt` shows `k`. -/
def bsString (rt : MapRt K) (ptrName : List Char) (shows : K → List Char) (s : MRef) : GoM (MWorld K) (Option (List Char)) := do
  let name ← nameOfTypeM ptrName
  let keys ← bsKeys rt s
  return sprintf "BuiltinSet[%s]%v".toList [name, showSlice (keys.map shows)]

/-- `DList.String`, `/repo/dlist.go:45-47`. It does not look at the list. -/
def dlString (ptrName : List Char) : Outcome (Option (List Char)) := do
  let name ← nameOfType ptrName
  return sprintf "DList[%v]".toList [name]

/-- `DListQueue.String`, `/repo/dlist_queue.go:34-36`. It does not look at the queue. -/
def dlqString (ptrName : List Char) : Outcome (Option (List Char)) := do
  let name ← nameOfType ptrName
  return sprintf "Queue[%v]".toList [name]

end Stl4go
