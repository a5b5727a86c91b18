import Verif.Proofs.BuiltinSetNested
import Verif.Props.BuiltinSetLive
/-!
# Property C140: loops over `BuiltinSet`s inside one another (`/repo/builtin_set.go`)

Programs use any sets, and run `ForEachIf` over any of them with callbacks that are such programs. `rt` makes the choices of the Go runtime in each of the loops.
-/
namespace Stl4go
variable {K σ α : Type} [GoEq K] [LawfulGoEq K]

/-- C140: whatever loops a program runs inside one another, over the same or different sets, and whatever it does to any sets meanwhile: every loop passes to its callback only
members of its set, those that were there at the start at most once as long as they stay, and ends only when it owes no member, or is told to stop; calls have their results. If the
program does not end, it hangs in one of its callbacks, or a loop has called its callback more than `extra` times for members inserted during it. -/
theorem C140_nested (rt : LiveRt K) (extra : Nat) (ops : List (BOp K)) (hl : BState.empty.Legal ops) (p : NProg K α) :
    match p.exec rt extra (LiveWorld.empty.after rt extra ops) with
    | .ok a w' => ∃ v, p.Runs extra ⟨BState.empty.after ops, []⟩ (.ok a v) ∧ v.loops = [] ∧ w'.Is v.st
    | .panic w' => ∃ v, p.Runs extra ⟨BState.empty.after ops, []⟩ (.panic v) ∧ w'.Is v.st
    | .diverge => p.Runs extra ⟨BState.empty.after ops, []⟩ .diverge := by
  have h := (LiveWorld.run_ok rt extra ops _ _ LRel.empty hl).2
  have hx := NProg.exec_ok rt extra p [] _ ⟨BState.empty.after ops, []⟩ ⟨h, trivial⟩
  revert hx
  cases p.exec rt extra (LiveWorld.empty.after rt extra ops) with
  | ok a w' =>
    rintro ⟨v, h1, h2⟩
    refine ⟨v, h1, ?_, h2.rel.is⟩
    have h3 := h2.loops
    revert h3
    cases v.loops with
    | nil => exact fun _ => rfl
    | cons f fs => exact fun h => h.elim
  | panic w' => rintro ⟨v, h1, h2⟩; exact ⟨v, h1, h2.is⟩
  | diverge => exact fun h => h

/-- C140: a program that inserts nothing into a set while it runs a loop over it ends, however many loops it nests and whatever else it changes. -/
theorem C140_ends (rt : LiveRt K) (extra : Nat) (ops : List (BOp K)) (hl : BState.empty.Legal ops) (p : NProg K α) (hp : p.Tame []) :
    p.exec rt extra (LiveWorld.empty.after rt extra ops) ≠ .diverge := by
  have h := (LiveWorld.run_ok rt extra ops _ _ LRel.empty hl).2
  have hx := NProg.exec_settles rt extra p [] _ _ h (by simp) hp
  intro e
  rw [e] at hx
  exact hx

/-- C140: two nested loops, over different sets or the same set, produce each pair of members exactly once, and change no sets. -/
theorem C140_pairs (rt : LiveRt K) (extra : Nat) (ops : List (BOp K)) (hl : BState.empty.Legal ops) (r r' : MRef)
    (hr : RefOk (BState.empty.after ops).next r) (hr' : RefOk (BState.empty.after ops).next r') :
    ∃ l w' la lb, (NProg.pairs r r').exec rt extra (LiveWorld.empty.after rt extra ops) = .ok l w' ∧ w'.Is (BState.empty.after ops) ∧
      Lists ((BState.empty.after ops).of r) la ∧ Lists ((BState.empty.after ops).of r') lb ∧ l.Perm (la.flatMap (fun x => lb.map (fun y => (x, y)))) := by
  have h := (LiveWorld.run_ok rt extra ops _ _ LRel.empty hl).2
  have hn : (LiveWorld.empty.after rt extra ops : LiveWorld K).next = (BState.empty.after ops).next := h.1.1
  obtain ⟨l, n, e, hp⟩ := pairs_exec rt extra r r' _ h.2 (by rw [hn]; exact hr) (by rw [hn]; exact hr')
  exact ⟨l, _, _, _, e, (h.steps n).is, h.of r, h.of r', hp⟩

omit [LawfulGoEq K] in
/-- C140: for callbacks without loops these programs are those of C128. -/
theorem C140_plain (rt : LiveRt K) (extra : Nat) (r : MRef) (cb : σ → K → BProg K (σ × Bool)) (t : σ) (w : LiveWorld K) (hr : RefOk w.next r) :
    (NProg.each r (fun t k => (cb t k).nested) t .ret).exec rt extra w = Live.forEachIf rt extra r (fun t k => (cb t k).exec rt extra) t w := by
  simp only [NProg.exec, if_pos hr, GoM.bind_def, BProg.exec_nested]
  cases Live.forEachIf rt extra r (fun t k => (cb t k).exec rt extra) t w <;> rfl

/-- For each member, in a loop over the same set, remove the others; note the members the outer loop gets. -/
def lastStanding : NProg Int (List Int) :=
  .each (some 0) (fun l x => .each (some 0) (fun _ y => if y = x then .ret ((), true) else .call (.remove (some 0) y) (fun _ => .ret ((), true))) ()
    (fun _ => .ret (l ++ [x], true))) [] .ret

example : lastStanding.Tame [] := by
  refine ⟨fun _ x => ⟨fun _ y => ?_, fun _ => trivial⟩, fun _ => trivial⟩
  dsimp only
  split
  · trivial
  · exact ⟨fun r _ => rfl, fun _ => trivial⟩

/-- The outer loop gets one member, and that is left. -/
example : (match lastStanding.exec lastEntry 0 (LiveWorld.empty.after lastEntry 0 [.setOf [1, 2, 3]]) with
    | .ok l w => some (l, (w.maps 0).map (·.key)) | _ => none) = some ([3], [3]) ∧
  (match lastStanding.exec firstEntry 0 (LiveWorld.empty.after firstEntry 0 [.setOf [1, 2, 3]]) with
    | .ok l w => some (l, (w.maps 0).map (·.key)) | _ => none) = some ([1], [1]) := by decide +kernel

example : (match (NProg.pairs (some 0) (some 1) : NProg Int _).exec lastEntry 0 (LiveWorld.empty.after lastEntry 0 [.setOf [1, 2], .setOf [7, 8, 9]]) with
    | .ok l _ => some l | _ => none) = some [(2, 9), (2, 8), (2, 7), (1, 9), (1, 8), (1, 7)] := by decide +kernel

/-- Insert sums of pairs into the set that the outer loop runs over: how many calls that takes is up to the runtime. -/
def sums : NProg Int (List Int) :=
  .each (some 0) (fun l x => .each (some 1) (fun _ y => .call (.insert (some 0) (x + y)) (fun _ => .ret ((), true))) () (fun _ => .ret (l ++ [x], l.length < 4))) [] .ret

example : (match sums.exec lastEntry 9 (LiveWorld.empty.after lastEntry 9 [.setOf [1, 2], .setOf [10]]) with
    | .ok l w => some (l, (w.maps 0).map (·.key)) | _ => none) = some ([2, 12, 22, 32, 42], [1, 2, 12, 22, 32, 42, 52]) ∧
  (match sums.exec oldEntries 9 (LiveWorld.empty.after oldEntries 9 [.setOf [1, 2], .setOf [10]]) with
    | .ok l w => some (l, (w.maps 0).map (·.key)) | _ => none) = some ([1, 2], [1, 2, 11, 12]) := by decide +kernel

end Stl4go
