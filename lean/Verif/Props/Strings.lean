import Verif.Proofs.Strings
/-!
# C136: the `String` methods

`name` is the name of the element type, `shows` how `fmt` shows an element.
-/
namespace Stl4go
variable {K : Type}

/-- C136: `nameOfType` gives the name of the type. -/
theorem C136_name (name : List Char) : nameOfType (pointerTo name) = .ret name := by simp [nameOfType, pointerTo]

/-- C136: `String` of a set shows the name of the key type and each member once, in some order, and changes no set. -/
theorem C136_set [GoEq K] [LawfulGoEq K] (rt : MapRt K) (hrt : rt.Fair) (name : List Char) (shows : K → List Char) (r : MRef) (w : MWorld K) (hw : w.Proper) :
    ∃ l w', bsString rt (pointerTo name) shows r w =
        .ok (some ("BuiltinSet[".toList ++ name ++ "][".toList ++ spaced (l.map shows) ++ "]".toList)) w'
      ∧ Lists (w.set r) l ∧ l.Perm (w.keysOf r) ∧ w'.maps = w.maps ∧ w'.next = w.next := by
  refine ⟨_, _, bsString_eq rt name shows r w, ?_, hrt _ _, rfl, rfl⟩
  have : Lists (w.set r) (w.keysOf r) := by
    refine ⟨?_, fun k => by simp [MWorld.set, List.any_eq_true]⟩
    cases r with
    | none => exact List.Pairwise.nil
    | some i => exact hw i
  exact this.perm (hrt _ _)

/-- C136: if different keys are shown as different words, two sets that are shown alike have the same members. -/
theorem C136_determines [GoEq K] [LawfulGoEq K] (rt : MapRt K) (hrt : rt.Fair) (name : List Char) (shows : K → List Char) (hword : ∀ k, Word (shows k))
    (hinj : ∀ a b, shows a = shows b → GoEq.eq a b = true) (r r' : MRef) (w w' w1 w2 : MWorld K) (o : Option (List Char))
    (h1 : bsString rt (pointerTo name) shows r w = .ok o w1) (h2 : bsString rt (pointerTo name) shows r' w' = .ok o w2) (k : K) :
    w.set r k = w'.set r' k := by
  rw [bsString_eq] at h1 h2
  simp only [Res.ok.injEq] at h1 h2
  have e := h1.1.trans h2.1.symm
  simp only [Option.some.injEq, List.append_cancel_right_eq, List.append_cancel_left_eq] at e
  have e := spaced_inj _ _ (by simp [hword]) (by simp [hword]) e
  have key : ∀ (l l' : List K), l.map shows = l'.map shows → ∀ x ∈ l, ∃ y ∈ l', GoEq.eq x y = true := by
    intro l l' he x hx
    have : shows x ∈ l'.map shows := by rw [← he]; exact List.mem_map_of_mem hx
    obtain ⟨y, hy, e⟩ := List.mem_map.mp this
    exact ⟨y, hy, hinj _ _ e.symm⟩
  have half : ∀ (l l' m m' : List K), l.Perm m → l'.Perm m' → l.map shows = l'.map shows → m.any (fun e => GoEq.eq k e) = true →
      m'.any (fun e => GoEq.eq k e) = true := by
    intro l l' m m' hp hp' he h
    obtain ⟨x, hx, hkx⟩ := List.any_eq_true.mp h
    obtain ⟨y, hy, hxy⟩ := key l l' he x (hp.mem_iff.2 hx)
    exact List.any_eq_true.mpr ⟨y, hp'.mem_iff.1 hy, LawfulGoEq.trans _ _ _ hkx hxy⟩
  exact Bool.eq_iff_iff.mpr ⟨half _ _ _ _ (hrt _ _) (hrt _ _) e, half _ _ _ _ (hrt _ _) (hrt _ _) e.symm⟩

/-- C136: lists and queues show the name of their element type and nothing else. -/
theorem C136_lists (name : List Char) :
    dlString (pointerTo name) = .ret (some ("DList[".toList ++ name ++ "]".toList)) ∧
      dlqString (pointerTo name) = .ret (some ("Queue[".toList ++ name ++ "]".toList)) := by
  simp [dlString, dlqString, nameOfType, pointerTo, sprintf]

/-! ## Cases -/

section Cases

/-- Numbers in decimal. -/
def decimal (n : Nat) : List Char := (toString n).toList

/-- A runtime that turns the order of the keys round. -/
def backwards : MapRt Nat := { order := fun _ l => l.reverse, replace := false }
example : backwards.Fair := fun _ l => List.reverse_perm l

/-- The string of the set of 10, 2 and 33; of an empty set; of nil. -/
def setShown (l : List Nat) (r : MRef) : String :=
  match bsString backwards "*int".toList decimal r { maps := fun _ => l, next := 1, loops := 0 } with
  | .ok (some s) _ => String.ofList s
  | _ => "?"

example : setShown [10, 2, 33] (some 0) = "BuiltinSet[int][33 2 10]" := by decide +kernel
example : setShown [] (some 0) = "BuiltinSet[int][]" := by decide +kernel
example : setShown [1] none = "BuiltinSet[int][]" := by decide +kernel

/-- Words are needed: sets of strings that are not words can be shown alike. -/
example : spaced ["a b".toList, "c".toList] = spaced ["a".toList, "b c".toList] := by decide +kernel
example : Word "33".toList := by unfold Word; decide

end Cases

end Stl4go
