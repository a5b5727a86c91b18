import Verif.Proofs.SkipListMRange
import Verif.Proofs.SkipListMSafe
import Verif.Proofs.SkipListMHist
/-!
# Properties C101-C104: skip lists with a compare function that is Go code

`cmp` may keep a state, panic or hang; `SLM.run cmp ⟨newSkipList, t⟩ h` is a program that makes the operations `h` one after the
other and recovers from panics. `AgreesWith cmp c` says that whenever `cmp` returns, the sign of its answer is that of `c`.
The specification is in `Spec/SkipListM.lean`; `sl.Holds l` says that iterating over `sl` yields `l`.
-/
namespace Stl4go
variable {K V τ : Type} {cmp : CmpM K τ} {c : K → K → Int}

/-! ## C101: a panic in the compare function does no damage -/

/-- C101: operations panic or hang only when a call of the compare function does. An operation that panicked did nothing: all others
behave as on a finite map that never saw it. -/
theorem C101_history (hc : LawfulCmp c) (ha : AgreesWith cmp c) (h : List (Nat × SMOp K V)) (t : τ) :
    ∃ l, FallibleRun (fun m op ob m' => SMap.step (SLImpl.func c).less m op = (ob, m')) (CmpPanics cmp) (CmpHangs cmp) [] (opsOf h)
        (SLM.run cmp ⟨newSkipList, t⟩ h).1 l ∧
      (SLM.run cmp ⟨newSkipList, t⟩ h).2.sl.Holds l ∧ (SLM.run cmp ⟨newSkipList, t⟩ h).2.sl.length = l.length := by
  obtain ⟨ids, l, h1, h2, _⟩ := history_lawful hc ha h t
  exact ⟨l, h1, h2.holds, by rw [SL.length, h2.len_eq, h2.len_m]⟩

/-- C101: the same for answers that obey no law, with what C90 promises in place of a finite map. -/
theorem C101_any (ha : AgreesWith cmp c) (h : List (Nat × SMOp K V)) (t : τ) :
    ∃ l, FallibleRun (LooseStep (SLImpl.func c).same) (CmpPanics cmp) (CmpHangs cmp) [] (opsOf h) (SLM.run cmp ⟨newSkipList, t⟩ h).1 l ∧
      (SLM.run cmp ⟨newSkipList, t⟩ h).2.sl.Holds l ∧ (SLM.run cmp ⟨newSkipList, t⟩ h).2.sl.length = l.length := by
  obtain ⟨ids, l, h1, h2, _⟩ := history_any ha h t
  exact ⟨l, h1, h2.holds, by rw [SL.length, h2.len_eq, h2.len_m]⟩

/-- C101: a compare function without state that always returns gives a history without panic or hang: that of the finite map. -/
theorem C101_total (hc : LawfulCmp c) (h : List (Nat × SMOp K V)) :
    (SLM.run (fun a b => pure (c a b) : CmpM K Unit) ⟨newSkipList, ()⟩ h).1 = (SMap.run (SLImpl.func c).less [] (opsOf h)).1 := by
  have ha : AgreesWith (fun a b => pure (c a b) : CmpM K Unit) c := by
    intro a b t r t' e
    injection e with e1 _
    rw [← e1]
  obtain ⟨l, h1, hrest⟩ := C101_history hc ha h ()
  clear hrest
  revert h1
  generalize (SLM.run (fun a b => pure (c a b) : CmpM K Unit) ⟨newSkipList, ()⟩ h).1 = obs
  generalize ([] : List (K × V)) = l0
  generalize opsOf h = ops
  intro h1
  induction h1 with
  | nil m => rfl
  | done hs _ ih => simp only [SMap.run, hs, ih]
  | failed hf _ _ => obtain ⟨_, _, _, _, _, e⟩ := hf; simp at e
  | hung hf => obtain ⟨_, _, _, _, e⟩ := hf; simp at e

/-- C101 for `FindRange`: it leaves the list unchanged and panics or hangs only when a call about one of its two keys does. Iterating over
what it returns shows the entries from `first` to `last`, and panics exactly if there is an entry after `last` and before `first`. -/
theorem C101_findRange (hc : LawfulCmp c) (ha : AgreesWith cmp c) (h : List (Nat × SMOp K V)) (t : τ) {l : List (K × V)}
    (hl : (SLM.run cmp ⟨newSkipList, t⟩ h).2.sl.Holds l) (first last : K) (t' : τ) :
    match SLM.findRange cmp first last ⟨(SLM.run cmp ⟨newSkipList, t⟩ h).2.sl, t'⟩ with
    | .ok it s => s.sl = (SLM.run cmp ⟨newSkipList, t⟩ h).2.sl ∧ s.sl.observeIter it =
        if ∃ e ∈ l, c last e.1 < 0 ∧ c e.1 first < 0 then .panic else .ret (l.filter (fun e => !decide (c e.1 first < 0) && !decide (c last e.1 < 0)))
    | .panic s => s.sl = (SLM.run cmp ⟨newSkipList, t⟩ h).2.sl ∧ ∃ a u u', cmp a first u = .panic u' ∨ cmp a last u = .panic u'
    | .diverge => ∃ a u, cmp a first u = .diverge ∨ cmp a last u = .diverge := by
  obtain ⟨ids, l', _, hi, _⟩ := history_lawful hc ha h t
  obtain rfl := Holds.inj hi hl
  exact hi.findRange_effect hc ha first last t'

/-- A compare function that counts its calls and panics at the calls in `bad`. -/
def panicky (bad : List Nat) : CmpM Int Nat := fun a b t => if t ∈ bad then .panic (t + 1) else .ok (a - b) (t + 1)

theorem panicky_agrees (bad : List Nat) : AgreesWith (panicky bad) (fun a b => a - b) := by
  intro a b t r t' e
  simp only [panicky] at e
  split at e
  · simp at e
  · injection e with e1 _; rw [← e1]

theorem sub_lawful : LawfulCmp (fun a b : Int => a - b) where
  weak := {
    irrefl := fun a => by simp
    trans := fun a b c h1 h2 => by simp at *; omega
    incomp := fun a b c h1 h2 => by simp at *; omega }
  zero_iff := fun a b => by simp [Equiv]; omega

def exPanickyHist : List (Nat × SMOp Int Int) :=
  [(2 ^ 38, .insert 1 10), (2 ^ 39, .insert 2 20), (2 ^ 37, .insert 3 30), (0, .remove 2), (0, .remove 2), (0, .iterate), (0, .find 1)]

/-- The third insertion panics, after `prevs` was partly filled; so does the first removal. -/
example : (SLM.run (panicky [2, 3]) ⟨newSkipList, 0⟩ exPanickyHist).1 =
    [.unit, .unit, .panicked, .panicked, .flag true, .entries [(1, 10)], .val (some 10)] := by decide +kernel

/-- `FindRange` after two insertions, seen by the iteration: first ≤ last, first > last, and a panic in the compare function. -/
example : [([], 1, 2), ([], 2, 1), ([], 3, 1), ([2], 1, 2)].map (fun (bad, a, b) =>
      match SLM.findRange (panicky bad) a b ⟨(SLM.run (panicky []) ⟨newSkipList, 0⟩ (exPanickyHist.take 3)).2.sl, (2 : Nat)⟩ with
      | .ok it s => s.sl.observeIter it
      | .panic _ => .ret []
      | .diverge => .diverge) = [.ret [(1, 10), (2, 20)], .ret [], .panic, .ret []] := by decide +kernel

/-! ## C102: the arguments of the calls -/

/-- C102: the compare function is called with the key of an entry of the list first and the key of the operation second, never with
anything else, and not at all by operations without a key. -/
theorem C102_arguments (ha : AgreesWith cmp c) (h : List (Nat × SMOp K V)) (t : τ) {l : List (K × V)}
    (hl : (SLM.run cmp ⟨newSkipList, t⟩ h).2.sl.Holds l) (rnd : Nat) (op : SMOp K V) (t' : τ) {log : List (K × K)}
    (hlog : callsOf (SLM.exec cmp.logged rnd op ⟨(SLM.run cmp ⟨newSkipList, t⟩ h).2.sl, (t', [])⟩) = some log) :
    ∀ p ∈ log, op.key? = some p.2 ∧ p.1 ∈ l.map Prod.fst := by
  obtain ⟨ids, l', _, hi, _⟩ := history_any ha h t
  obtain rfl := Holds.inj hi hl
  obtain ⟨sl', ids', m', ob, a1, _⟩ := hi.execA (.func c) rnd op
  have hp := (exec_follows ha.logged (t', []) a1).calls hlog
  intro p hm
  exact (hi.opCalls c op).1 p (hp.subset hm)

/-- In a list of five keys, `Remove(7)` asks about 5 and 9 only. -/
def exCallsHist : List (Nat × SMOp Int Int) :=
  [(2 ^ 39, .insert 1 10), (2 ^ 39, .insert 3 30), (2 ^ 37, .insert 5 50), (2 ^ 39, .insert 9 90), (2 ^ 39, .insert 11 0)]

example : callsOf (SLM.exec (panicky []).logged 0 (.remove 7) ⟨(SLM.run (panicky []) ⟨newSkipList, 0⟩ exCallsHist).2.sl, (0, [])⟩) =
    some [(5, 7), (9, 7), (9, 7)] := by decide +kernel

/-! ## C103: the number of calls -/

/-- C103: an operation makes at most one call for each smaller key in the list, plus log₂(number of insertions so far) + 4. -/
theorem C103_cost (hc : LawfulCmp c) (ha : AgreesWith cmp c) (h : List (Nat × SMOp K V)) (t : τ) {l : List (K × V)}
    (hl : (SLM.run cmp ⟨newSkipList, t⟩ h).2.sl.Holds l) (rnd : Nat) (op : SMOp K V) {key : K} (hk : op.key? = some key) (t' : τ)
    {log : List (K × K)} (hlog : callsOf (SLM.exec cmp.logged rnd op ⟨(SLM.run cmp ⟨newSkipList, t⟩ h).2.sl, (t', [])⟩) = some log) :
    log.length ≤ (l.filter (fun e => c e.1 key < 0)).length + (inserts (opsOf h)).log2 + 4 := by
  obtain ⟨ids, l', _, hi, hlev⟩ := history_lawful hc ha h t
  obtain rfl := Holds.inj hi hl
  obtain ⟨sl', ids', a1, _⟩ := hi.exec (impl := .func c) hc rnd op
  have hp := ((exec_follows ha.logged (t', []) a1).calls hlog).length_le
  obtain ⟨iG, R, _, h2, h3⟩ := hi.opCalls_lawful hc op hk
  have h4 := sufMax_length (SLM.run cmp ⟨newSkipList, t⟩ h).2.sl.lvl iG
  have h5 := level_bound hlev
  simp only [SLImpl.less] at h2
  omega

/-- C103: for answers that obey no law, at most one call for each key in the list, plus the same. -/
theorem C103_any (ha : AgreesWith cmp c) (h : List (Nat × SMOp K V)) (t : τ) (rnd : Nat) (op : SMOp K V) (t' : τ)
    {log : List (K × K)} (hlog : callsOf (SLM.exec cmp.logged rnd op ⟨(SLM.run cmp ⟨newSkipList, t⟩ h).2.sl, (t', [])⟩) = some log) :
    (log.length : Int) ≤ (SLM.run cmp ⟨newSkipList, t⟩ h).2.sl.length + (inserts (opsOf h)).log2 + 4 := by
  obtain ⟨ids, l, _, hi, _, hlev⟩ := history_any ha h t
  obtain ⟨sl', ids', m', ob, a1, _⟩ := hi.execA (.func c) rnd op
  have hp := ((exec_follows ha.logged (t', []) a1).calls hlog).length_le
  have h3 := (hi.opCalls c op).2
  have h5 := level_bound hlev
  rw [SL.length, hi.len_eq, hi.len_m]
  omega

/-- The linear part is needed: if all nodes are of level 1, `Find` of a missing largest key asks about every key. -/
example : callsOf (SLM.exec (panicky []).logged 0 (.find 9) ⟨(SLM.run (panicky []) ⟨newSkipList, 0⟩
      [(2 ^ 39, .insert 1 10), (2 ^ 39, .insert 2 20), (2 ^ 39, .insert 3 30), (2 ^ 39, .insert 4 40)]).2.sl, (0, [])⟩) =
    some [(1, 9), (2, 9), (3, 9), (4, 9)] := by decide +kernel

/-! ## C104: wrong answers -/

/-- A compare function that gives one wrong answer, at call number `wrong`. -/
def flaky (wrong : Nat) : CmpM Int Nat := fun a b t => .ok (if t = wrong then b - a else a - b) (t + 1)

/-- C104 in full: whatever the compare function answers, no operation of the list panics or hangs by itself. -/
def C104_statement : Prop := ∀ (cmp : CmpM Int Nat), (∀ a b t, ∃ r t', cmp a b t = .ok r t') →
  ∀ (h : List (Nat × SMOp Int Int)), .panicked ∉ (SLM.run cmp ⟨newSkipList, 0⟩ h).1 ∧ .hung ∉ (SLM.run cmp ⟨newSkipList, 0⟩ h).1

/-- One wrong answer during `Remove(2)` makes `Remove(1)`, for which all answers are right, panic. -/
theorem C104_counterexample : ¬ C104_statement := by
  intro h
  have := (h (flaky 3) (fun a b t => ⟨_, _, rfl⟩)
    [(2 ^ 38, .insert 1 10), (2 ^ 38, .insert 2 20), (2 ^ 39, .insert 3 30), (0, .remove 2), (0, .remove 1)]).1
  revert this
  decide +kernel

/-- One wrong answer during `Remove(2)`, which returns true, and later 2 is found again, although iteration does not show it; a value
inserted for it is not shown either. -/
theorem C104_ghost : (SLM.run (flaky 8) ⟨newSkipList, 0⟩ [(2 ^ 38, .insert 1 10), (2 ^ 38, .insert 5 50), (2 ^ 38, .insert 2 20),
      (2 ^ 39, .insert 3 30), (0, .remove 2), (0, .remove 1), (0, .find 2), (0, .insert 2 21), (0, .iterate), (0, .len)]).1 =
    [.unit, .unit, .unit, .unit, .flag true, .flag true, .val (some 20), .unit, .entries [(3, 30), (5, 50)], .num 2] := by
  decide +kernel

/-- A compare function that gives two wrong answers, to its first call and to its third. -/
def misled : CmpM Int Nat := fun a b t => .ok (if t = 0 then 1 else if t = 2 then -1 else a - b) (t + 1)

/-- A key is inserted and removed again. The wrong answers are given during these two calls. -/
def misledHist : List (Nat × SMOp Int Int) := [(2 ^ 38, .insert 2 20), (2 ^ 38, .insert 3 30), (0, .remove 3)]

/-- After them `Find(9)`, for which all answers are right, does not return: `Remove` linked the node of key 2 to itself. -/
theorem C104_hang : (SLM.run misled ⟨newSkipList, 0⟩ (misledHist ++ [(0, .iterate), (0, .find 9)])).1 =
    [.unit, .unit, .flag true, .entries [(2, 20)], .hung] := by
  decide +kernel

/-- It never returns, however long one waits: the loop over level 1 goes round the node of key 2 for any number of rounds. -/
theorem C104_hang_forever (fuel : Nat) (prev : Ref) (t : Nat) (ht : 3 ≤ t) :
    SLM.lowerBoundInner misled 9 1 fuel prev (some 0) ⟨(SLM.run misled ⟨newSkipList, 0⟩ misledHist).2.sl, t⟩ = .diverge := by
  have hd : (SLM.run misled ⟨newSkipList, 0⟩ misledHist).2.sl.deref 0 = .ret ⟨2, 20, [none, some 0]⟩ := by decide +kernel
  refine lowerBoundInner_self hd rfl (fun t => 3 ≤ t) ?_ fuel prev t ht
  intro t ht
  refine ⟨2 - 9, t + 1, ?_, by decide, by omega⟩
  simp only [misled]
  rw [if_neg (by omega), if_neg (by omega)]

/-- C104, what holds: reading with a compare function that answers anything at all leaves the list unchanged, shows entries that are
there, and panics or hangs only if a call does. -/
theorem C104_reads_partial (ha : AgreesWith cmp c) (h : List (Nat × SMOp K V)) (t : τ) {l : List (K × V)}
    (hl : (SLM.run cmp ⟨newSkipList, t⟩ h).2.sl.Holds l) {τ' : Type} (cmp' : CmpM K τ') (t' : τ') (rnd : Nat) (key : K) (op : SMOp K V)
    (hop : op = .find key ∨ op = .has key ∨ op = .lowerBound key ∨ op = .upperBound key) :
    Safe cmp' key (SLM.run cmp ⟨newSkipList, t⟩ h).2.sl (ReadShows l op)
      (SLM.exec cmp' rnd op ⟨(SLM.run cmp ⟨newSkipList, t⟩ h).2.sl, t'⟩) := by
  obtain ⟨ids, l', _, hi, _⟩ := history_any ha h t
  obtain rfl := Holds.inj hi hl
  exact hi.reads_safe t' rnd hop

/-- Answers that depend only on the number of the call: the search ends anywhere, but on an entry. -/
example : (match SLM.exec (fun _ _ t => .ok (if t % 2 = 0 then -1 else 0) (t + 1) : CmpM Int Nat) 0 (.lowerBound 4)
      ⟨(SLM.run (panicky []) ⟨newSkipList, 0⟩ exCallsHist).2.sl, 0⟩ with
    | .ok ob _ => some ob
    | _ => none) = some (.entries [(9, 90), (11, 0)]) := by decide +kernel

end Stl4go
