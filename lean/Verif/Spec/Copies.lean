import Verif.Spec.SList
/-!
# Specification of histories that copy `SList` and `DList` structs

`SListOf` and `DListOf` return structs, and Go's assignment copies structs. In the specification a copy is a sequence of its own. Which variables share nodes is followed by a
relation, from the history alone.
-/
namespace Stl4go
variable {T : Type}

/-- A statement of a client: an operation on variable `i`, or the assignment `v_i = v_j`. -/
inductive CStmt (O : Type) where
  | op (i : Nat) (o : O)
  | copy (i j : Nat)

/-- One variable gets a new value. -/
def upd {α : Type} (w : Nat → α) (i : Nat) (x : α) : Nat → α := fun j => if j = i then x else w j

/-- Which variables share nodes. -/
abbrev Alias := Nat → Nat → Bool

/-- At first every variable only with itself. -/
def Alias.start : Alias := fun a b => a == b

/-- Variable `i` has no nodes in common with others any more. -/
def Alias.drop (al : Alias) (i : Nat) : Alias := fun a b => a == b || (a != i && b != i && al a b)

/-- Variable `i` is now a copy of `j`. -/
def Alias.join (al : Alias) (i j : Nat) : Alias := fun a b => a == b || al (if a = i then j else a) (if b = i then j else b)

/-- Variable `i` shares its nodes with no other. -/
def Alias.Alone (al : Alias) (i : Nat) : Prop := ∀ k, al i k = true → k = i

/-! ## `SList` -/

/-- One statement on sequences: what is observed, and the sequences afterwards. -/
def LSeq.stmt (w : Nat → List T) : CStmt (LOp T) → DObs T × (Nat → List T)
  | .op i o => ((LSeq.step (w i) o).1, upd w i (LSeq.step (w i) o).2)
  | .copy i j => (.unit, upd w i (w j))

/-- A history on sequences. -/
def LSeq.runC : (Nat → List T) → List (CStmt (LOp T)) → List (DObs T) × (Nat → List T)
  | w, [] => ([], w)
  | w, c :: h => ((LSeq.stmt w c).1 :: (LSeq.runC (LSeq.stmt w c).2 h).1, (LSeq.runC (LSeq.stmt w c).2 h).2)

/-- One statement on the model. -/
def LWorld.stmt [GoZero T] (w : LWorld T) : CStmt (LOp T) → DObs T × LWorld T
  | .op i o => ((LL.exec ⟨w.heap, w.vars i⟩ o).1, { heap := (LL.exec ⟨w.heap, w.vars i⟩ o).2.heap, vars := upd w.vars i (LL.exec ⟨w.heap, w.vars i⟩ o).2.l })
  | .copy i j => (.unit, { w with vars := upd w.vars i (w.vars j) })

/-- A history on the model. -/
def LWorld.runC [GoZero T] : LWorld T → List (CStmt (LOp T)) → List (DObs T) × LWorld T
  | w, [] => ([], w)
  | w, c :: h => ((w.stmt c).1 :: (LWorld.runC (w.stmt c).2 h).1, (LWorld.runC (w.stmt c).2 h).2)

/-- The operations that change the links of nodes that are in a list already. -/
def LOp.relinks : LOp T → Bool
  | .pushBack _ => true
  | .reverse => true
  | _ => false

/-- The operation makes new nodes only. -/
def LOp.renews : LOp T → Bool
  | .make _ => true
  | _ => false

/-- Who shares with whom after a statement: a list that is made anew or is empty shares with none. -/
def LSeq.alias (al : Alias) (w : Nat → List T) : CStmt (LOp T) → Alias
  | .op i o => if o.renews || (LSeq.step (w i) o).2.isEmpty then al.drop i else al
  | .copy i j => if (w j).isEmpty then al.drop i else al.join i j

/-- Only lists that share with none are relinked. -/
def LSeq.Fair : Alias → (Nat → List T) → List (CStmt (LOp T)) → Prop
  | _, _, [] => True
  | al, w, c :: h => (match c with | .op i o => o.relinks = true → al.Alone i | .copy _ _ => True) ∧ LSeq.Fair (LSeq.alias al w c) (LSeq.stmt w c).2 h

/-- Who shares with whom after a history. -/
def LSeq.aliases : Alias → (Nat → List T) → List (CStmt (LOp T)) → Alias
  | al, _, [] => al
  | al, w, c :: h => LSeq.aliases (LSeq.alias al w c) (LSeq.stmt w c).2 h

/-! ## `DList` -/

/-- One statement on sequences. -/
def Deque.stmt [GoZero T] (w : Nat → List T) : CStmt (DOp T) → DObs T × (Nat → List T)
  | .op i o => ((Deque.step (w i) o).1, upd w i (Deque.step (w i) o).2)
  | .copy i j => (.unit, upd w i (w j))

/-- A history on sequences. -/
def Deque.runC [GoZero T] : (Nat → List T) → List (CStmt (DOp T)) → List (DObs T) × (Nat → List T)
  | w, [] => ([], w)
  | w, c :: h => ((Deque.stmt w c).1 :: (Deque.runC (Deque.stmt w c).2 h).1, (Deque.runC (Deque.stmt w c).2 h).2)

/-- One statement on the model. -/
def DWorld.stmt [GoZero T] (w : DWorld T) : CStmt (DOp T) → DObs T × DWorld T
  | .op i o => ((DL.exec ⟨w.heap, w.vars i⟩ o).1, { heap := (DL.exec ⟨w.heap, w.vars i⟩ o).2.heap, vars := upd w.vars i (DL.exec ⟨w.heap, w.vars i⟩ o).2.l })
  | .copy i j => (.unit, { w with vars := upd w.vars i (w.vars j) })

/-- A history on the model. -/
def DWorld.runC [GoZero T] : DWorld T → List (CStmt (DOp T)) → List (DObs T) × DWorld T
  | w, [] => ([], w)
  | w, c :: h => ((w.stmt c).1 :: (DWorld.runC (w.stmt c).2 h).1, (DWorld.runC (w.stmt c).2 h).2)

/-- Whether the operation changes nodes that are there already, when it is used on the list `s`. -/
def DOp.writes (s : List T) : DOp T → Bool
  | .pushFront _ | .pushBack _ | .clear => true
  | .popFront | .popBack | .tryPopFront | .tryPopBack => !s.isEmpty
  | _ => false

/-- Who shares with whom, and which lists have been pushed to: a `DList` has no node at all until then. -/
structure DShare where
  al : Alias
  used : Nat → Bool

/-- At first. -/
def DShare.start : DShare := ⟨Alias.start, fun _ => false⟩

/-- After a statement. -/
def DShare.stmt (x : DShare) : CStmt (DOp T) → DShare
  | .op i (.make vs) => ⟨x.al.drop i, upd x.used i (!vs.isEmpty)⟩
  | .op i (.pushFront _) => ⟨x.al, upd x.used i true⟩
  | .op i (.pushBack _) => ⟨x.al, upd x.used i true⟩
  | .op _ _ => x
  | .copy i j => ⟨if x.used j then x.al.join i j else x.al.drop i, upd x.used i (x.used j)⟩

/-- Only lists that share with none are written. -/
def Deque.Fair [GoZero T] : DShare → (Nat → List T) → List (CStmt (DOp T)) → Prop
  | _, _, [] => True
  | x, w, c :: h => (match c with | .op i o => o.writes (w i) = true → x.al.Alone i | .copy _ _ => True) ∧ Deque.Fair (x.stmt c) (Deque.stmt w c).2 h

/-- After a history. -/
def DShare.run : DShare → List (CStmt (DOp T)) → DShare
  | x, [] => x
  | x, c :: h => DShare.run (x.stmt c) h

end Stl4go
