import Verif.Proofs.SkipListCopy
import Verif.Props.SkipList
/-!
# Property C148: copies of skip lists

`c := *sl`, then methods of both. `OwnMaps.run`: a copy is a map of its own. `SharedMap.run`: there is one map, only the counters are separate.
See `Spec/SkipListCopy.lean`.
-/
namespace Stl4go
variable {K V : Type} {impl : SLImpl K}

/-- C148 in full: a copy of a skip list is a map of its own. False, see `C148_counterexample`. -/
def C148_statement : Prop := ∀ (K V : Type) (impl : SLImpl K), impl.Lawful → ∀ h : List (SLCStmt K V),
  ∃ w, SLCWorld.init.run impl h = .ret ((OwnMaps.init.run impl.less h).1, w)

/-- For the counterexample: a new key of the copy is in the list. -/
def slCopyWrong : List (SLCStmt Int Int) := [.copy 0 none, .op (some 0) (2 ^ 39) (.insert 1 10), .op none 0 (.has 1), .op none 0 .len, .op (some 0) 0 .len]

/-- What a history shows. -/
def slCopyObs (h : List (SLCStmt Int Int)) : Outcome (List (SMObs Int Int)) := do
  let (obs, _) ← SLCWorld.init.run exImpl h
  return obs

example : slCopyObs slCopyWrong = .ret [.unit, .unit, .flag true, .num 0, .num 1]
    ∧ (OwnMaps.init.run exImpl.less slCopyWrong).1 = [.unit, .unit, .flag false, .num 0, .num 1] := by decide +kernel

/-- C148 is false. -/
theorem C148_counterexample : ¬ C148_statement := by
  intro h
  obtain ⟨w, hw⟩ := h Int Int exImpl exImpl_lawful slCopyWrong
  have h1 : slCopyObs slCopyWrong = .ret (OwnMaps.init.run exImpl.less slCopyWrong).1 := by rw [slCopyObs, hw]; rfl
  exact absurd h1 (by decide +kernel)

/-- C148 as it is, for histories in which a copy gets a new key only on levels that both have: the list and its copies are one map, each with a counter
that counts what was put in and taken out through it (`Clear` empties the map and sets only the counter of the one it is called on). A zero value has
length 0 and can be cleared, its other methods panic. -/
theorem C148_shared_partial (hl : impl.Lawful) (h : List (SLCStmt K V)) (hf : SLCWorld.init.Fair impl h) :
    ∃ w, SLCWorld.init.run impl h = .ret ((SharedMap.init.run impl.less h).1, w) := by
  obtain ⟨w, h1, _⟩ := (SLCInv.init impl.less).run hl h hf
  exact ⟨w, h1⟩

/-- For the example: keys 5, 9 and 1 with levels 3, 1 and 2; a copy puts in 7 at level 1, writes 9 and takes 5 out; the list takes 7 out; `Clear` of the copy. -/
def slCopyDemo : List (SLCStmt Int Int) :=
  exPre.map (fun x => .op none x.1 x.2) ++
  [.copy 0 none, .op (some 0) (2 ^ 39) (.insert 7 70), .op (some 0) 0 (.insert 9 91), .op (some 0) 0 (.remove 5), .op none 0 .len, .op (some 0) 0 .len,
   .op none 0 .iterate, .op none 0 (.remove 7), .op none 0 .len, .copy 1 (some 0), .op (some 1) 0 .clear, .op none 0 .iterate, .op none 0 .len,
   .op (some 0) 0 .isEmpty, .op (some 1) 0 .isEmpty, .op (some 0) 0 (.find 9), .op (some 2) 0 .len, .op (some 2) 0 (.has 1)]

example : slCopyObs slCopyDemo = .ret [.unit, .unit, .unit, .unit, .unit, .unit, .flag true, .num 3, .num 3,
    .entries [(1, 10), (7, 70), (9, 91)], .flag true, .num 2, .unit, .unit, .entries [], .num 2, .flag false, .flag true, .val none, .num 0, .panicked] := by
  decide +kernel

/-- Whether a statement is fair, and a history. -/
def slCopyFair (w : SLCWorld Int Int) : List (SLCStmt Int Int) → Bool
  | [] => true
  | c :: h => (match c with
      | .op (some i) rnd (.insert k _) => (match w.vars i with
        | .zero => true
        | .copy own => decide (w.sl.has exImpl k = .ret true) || (match SL.randomLevel { w.sl with len := own.len } rnd with
          | .ret l => decide (l ≤ own.level ∧ l ≤ w.sl.level)
          | _ => false))
      | _ => true) && (match w.step exImpl c with
      | .ret (_, w') => slCopyFair w' h
      | _ => false)

theorem slCopyFair_fair : ∀ (h : List (SLCStmt Int Int)) (w : SLCWorld Int Int), slCopyFair w h = true → w.Fair exImpl h := by
  intro h
  induction h with
  | nil => intro w _; exact trivial
  | cons c h ih =>
    intro w hw
    simp only [slCopyFair, Bool.and_eq_true] at hw
    obtain ⟨h1, h2⟩ := hw
    refine ⟨?_, fun ob w' hs => ih w' (by rw [hs] at h2; exact h2)⟩
    unfold SLCWorld.FairStmt
    split
    · simp only at h1
      split
      · trivial
      · rename_i own hv
        rw [hv] at h1
        simp only [Bool.or_eq_true, decide_eq_true_eq] at h1
        rcases h1 with h1 | h1
        · exact .inl h1
        · right
          split at h1
          · exact ⟨_, ‹_›, of_decide_eq_true h1⟩
          · simp at h1
    · trivial

example : SLCWorld.init.Fair exImpl slCopyDemo := slCopyFair_fair _ _ (by decide +kernel)

/-- After every such history: a new key of a copy made just now, on a level above those of the list, cannot be taken out again. `Remove` of it panics, through
the list and through every copy. -/
theorem C148_panics_partial (hl : impl.Lawful) (h : List (SLCStmt K V)) (hf : SLCWorld.init.Fair impl h) {obs : List (SMObs K V)} {w : SLCWorld K V}
    (hw : SLCWorld.init.run impl h = .ret (obs, w)) (i rnd : Nat) (k : K) (v : V) (hk : w.sl.has impl k = .ret false) {l : Nat}
    (hr : w.sl.randomLevel rnd = .ret l) (hgt : w.sl.level < l) :
    ∃ w', w.run impl [.copy i none, .op (some i) rnd (.insert k v)] = .ret ([.unit, .unit], w') ∧
      w'.step impl (.op none 0 (.remove k)) = .panic ∧
      ∀ j, w'.vars j ≠ .zero → w'.step impl (.op (some j) 0 (.remove k)) = .panic := by
  obtain ⟨w0, e1, e2⟩ := (SLCInv.init impl.less).run hl h hf
  have : w0 = w := by rw [hw] at e1; injection e1 with e1; injection e1 with _ e1; exact e1.symm
  subst this
  obtain ⟨d, ids, hi⟩ := e2.sl
  obtain ⟨iG, iH, iS, G, H, S, p⟩ := hi.pos hl k
  rcases p.cases with ⟨rfl, rfl⟩ | ⟨q, e, rfl, rfl, hkv⟩
  · obtain ⟨sl', d', a1, a2, a3⟩ := hi.copyInsert_above hl p v hr hgt
    have hG : iG.length = G.length := by have := congrArg List.length p.kG; simpa using this
    have p' := a2.pos_put hl p.sp hG
    obtain ⟨s0, prevs, nd, f1, f2, f3⟩ := a2.low_remove hl p' hi.level_pos (by omega) w0.sl.len
    refine ⟨⟨{ sl' with level := w0.sl.level, len := w0.sl.len }, fun j => if j = i then .copy { level := l, len := w0.sl.len + 1 } else
      if j = i then .copy { level := w0.sl.level, len := w0.sl.len } else w0.vars j⟩, ?_, ?_, ?_⟩
    · simp [SLCWorld.run, SLCWorld.step, SL.execCopy, a1]
    · simp [SLCWorld.step, SL.exec, SL.remove, f1, f2, f3]
    · intro j hj
      simp only [SLCWorld.step]
      split
      · exact absurd ‹_› hj
      · simp [SL.execCopy, SL.copyRemove, f1, f2, f3]
  · have hf := hi.findNode hl p
    simp [SL.has, hf] at hk

example : slCopyObs [.op none (2 ^ 39) (.insert 5 50), .copy 0 none, .op (some 0) (2 ^ 38) (.insert 7 70), .op none 0 (.has 7), .op none 0 (.remove 7)] = .panic
    ∧ slCopyObs [.op none (2 ^ 39) (.insert 5 50), .copy 0 none, .op (some 0) (2 ^ 38) (.insert 7 70), .op none 0 (.has 7), .op none 0 (.remove 5)]
      = .ret [.unit, .unit, .unit, .flag true, .flag true] := by decide +kernel

end Stl4go
