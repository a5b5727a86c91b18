import Verif.Model.DList
/-!
# Model of `/repo/dlist_queue.go`

A `DListQueue` has one field, the `DList`; the receiver of a queue method is that field. `String` (`/repo/dlist_queue.go:34-36`) is in `Model/Strings`.
-/
namespace Stl4go
variable {T : Type}

/-- `NewDListQueue`, `/repo/dlist_queue.go:13-16`, assigned to the receiver. -/
def DQ.new : GoM (DS T) Unit := GoM.modify (fun s => { s with l := {} })

/-- `Len`, `/repo/dlist_queue.go:19-21`. -/
def DQ.len : GoM (DS T) Int := DL.len

/-- `IsEmpty`, `/repo/dlist_queue.go:24-26`. -/
def DQ.isEmpty : GoM (DS T) Bool := DL.isEmpty

/-- `Clear`, `/repo/dlist_queue.go:29-31`. -/
def DQ.clear : GoM (DS T) Unit := DL.clear

/-- `Front`, `/repo/dlist_queue.go:39-41`. -/
def DQ.front : GoM (DS T) T := DL.front

/-- `Back`, `/repo/dlist_queue.go:44-46`. -/
def DQ.back : GoM (DS T) T := DL.back

/-- `PushFront`, `/repo/dlist_queue.go:49-51`. -/
def DQ.pushFront [GoZero T] (val : T) : GoM (DS T) Unit := DL.pushFront val

/-- `PushBack`, `/repo/dlist_queue.go:54-56`. -/
def DQ.pushBack [GoZero T] (val : T) : GoM (DS T) Unit := DL.pushBack val

/-- `PopFront`, `/repo/dlist_queue.go:59-61`. -/
def DQ.popFront [GoZero T] : GoM (DS T) T := DL.popFront

/-- `PopBack`, `/repo/dlist_queue.go:64-66`. -/
def DQ.popBack [GoZero T] : GoM (DS T) T := DL.popBack

/-- `TryPopFront`, `/repo/dlist_queue.go:69-71`. -/
def DQ.tryPopFront [GoZero T] : GoM (DS T) (T × Bool) := DL.tryPopFront

/-- `TryPopBack`, `/repo/dlist_queue.go:74-76`. -/
def DQ.tryPopBack [GoZero T] : GoM (DS T) (T × Bool) := DL.tryPopBack

end Stl4go
