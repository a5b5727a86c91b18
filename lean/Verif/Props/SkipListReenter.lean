import Verif.Proofs.SkipListReenter
import Verif.Props.SkipListM
import Verif.Proofs.SkipListMRange
/-!
# Property C150: skip lists whose compare function uses them

`CmpCode` (`Model/SkipListReenter.lean`) is the code of a compare function that may call the methods of the list it belongs to, `CmpCode.at code d` the
function on a stack of depth `d`. The specification is in `Spec/SkipListReenter.lean`.
-/
namespace Stl4go
variable {K V τ : Type} {c : K → K → Int} {code : K → K → τ → CmpCode K V τ}

/-- C150 in full: code that always answers right, that never panics and that calls only methods that leave the entries as they are, which are those that
look at the list and `Remove` of keys that are never inserted: no operation panics, and if all return they behave as on a finite map. -/
def C150_statement : Prop := ∀ (K V τ : Type) (c : K → K → Int) (code : K → K → τ → CmpCode K V τ) (h : List (Nat × SMOp K V)),
  LawfulCmp c → (∀ a b t, (code a b t).Answers (c a b).sign) → (∀ a b t, ¬ (code a b t).CanPanic) →
  (∀ a b t, (code a b t).Calls (fun op => op.Reading ∨ ∃ k, op = .remove k ∧ ∀ o ∈ h, ∀ k' v, o.2 = .insert k' v → c k' k ≠ 0)) →
  ∀ d t, .panicked ∉ (SLR.run (CmpCode.at code d) ⟨newSkipList, t⟩ h).1 ∧
    (.hung ∉ (SLR.run (CmpCode.at code d) ⟨newSkipList, t⟩ h).1 → (SLR.run (CmpCode.at code d) ⟨newSkipList, t⟩ h).1 = (SMap.run (SLImpl.func c).less [] (opsOf h)).1)

/-- A compare function that once, when asked about 1 and 2, calls `Remove(99)` first. -/
def meddling (a b : Int) (t : Nat) : CmpCode Int Int Nat :=
  if a = 1 ∧ b = 2 ∧ t = 0 then .call 1 0 (.remove 99) (fun _ t => .answer (a - b) t) else .answer (a - b) t

/-- No key 99 is ever there. -/
def meddlingHist : List (Nat × SMOp Int Int) :=
  [(2 ^ 39, .insert 1 10), (2 ^ 38, .insert 5 50), (2 ^ 38, .insert 2 20), (0, .iterate), (0, .remove 2), (0, .remove 5), (0, .find 5)]

/-- `Remove(99)`, which returns false, during `Insert(2)` overwrites the previous nodes that `Insert(2)` has found: the level above is linked
wrongly, and later `Remove(5)` panics. -/
theorem C150_counterexample : ¬ C150_statement := by
  intro h
  have := (h Int Int Nat (fun a b => a - b) meddling meddlingHist sub_lawful (fun a b t => by
      simp only [meddling]; split
      · intro ob t; rfl
      · rfl) (fun a b t => by
      simp only [meddling]; split
      · rintro ⟨ob, t, h⟩; exact h
      · exact id) (fun a b t => by
      simp only [meddling]; split
      · refine ⟨.inr ⟨99, rfl, ?_⟩, fun _ _ => trivial⟩
        intro o ho k' v e
        simp only [meddlingHist, List.mem_cons, List.not_mem_nil, or_false] at ho
        rcases ho with rfl | rfl | rfl | rfl | rfl | rfl | rfl <;> simp only [SMOp.insert.injEq, reduceCtorEq] at e <;> omega
      · trivial) 2 0).1
  revert this
  decide +kernel

/-- What a client sees. -/
theorem C150_damage : (SLR.run (CmpCode.at meddling 2) ⟨newSkipList, 0⟩ meddlingHist).1 =
    [.unit, .unit, .unit, .entries [(1, 10), (2, 20), (5, 50)], .flag true, .panicked, .val (some 50)] := by decide +kernel

/-- C150, what holds: if the code calls only methods that look at the list, it may also panic or never return. An operation panics only if the code
can panic about its key, hangs only if it has a key, and does nothing if it panics; the others behave as on a finite map.
Missing: `Remove` of keys that are not there, for which it is false. -/
theorem C150_reads_partial (hc : LawfulCmp c) (ha : ∀ a b t, (code a b t).Answers (c a b).sign) (hr : ∀ a b t, (code a b t).Calls SMOp.Reading)
    (d : Nat) (h : List (Nat × SMOp K V)) (t : τ) :
    ∃ l, FallibleRun (fun m op ob m' => SMap.step (SLImpl.func c).less m op = (ob, m'))
        (fun op => ∃ k a t, op.key? = some k ∧ (code a k t).CanPanic) (fun op => op.key?.isSome = true) [] (opsOf h)
        (SLR.run (CmpCode.at code d) ⟨newSkipList, t⟩ h).1 l ∧
      (SLR.run (CmpCode.at code d) ⟨newSkipList, t⟩ h).2.sl.Holds l ∧ (SLR.run (CmpCode.at code d) ⟨newSkipList, t⟩ h).2.sl.length = l.length := by
  obtain ⟨ids, l, h1, h2⟩ := SLR.run_fallible hc hr ha d h t (SLInv.new (V := V) _)
  exact ⟨l, h1, h2.holds, by rw [SL.length, h2.len_eq, h2.len_m]⟩

/-- C150, what holds: if in addition the code keeps a guard against calling itself without end, and does not panic by itself, then nothing panics or
hangs on a stack deeper than the guard, and the list is a finite map. -/
theorem C150_guarded_partial (hc : LawfulCmp c) (ha : ∀ a b t, (code a b t).Answers (c a b).sign) (hr : ∀ a b t, (code a b t).Calls SMOp.Reading)
    {guard : τ → Nat} (hg : ∀ a b t, (code a b t).Guarded guard (guard t)) (t : τ) {d : Nat} (hd : guard t < d) (h : List (Nat × SMOp K V)) :
    (SLR.run (CmpCode.at code d) ⟨newSkipList, t⟩ h).1 = (SMap.run (SLImpl.func c).less [] (opsOf h)).1 :=
  SLR.run_guarded hc hr ha hg h t (SLInv.new (V := V) _) hd

/-- C150 for `FindRange`, what holds: it leaves the list unchanged and panics only if the code can panic about one of its two keys. Iterating
over what it returns shows the entries from `first` to `last`, and panics exactly if there is an entry after `last` and before `first`. With a
guard it does not hang, nor panic. -/
theorem C150_findRange_partial (hc : LawfulCmp c) (ha : ∀ a b t, (code a b t).Answers (c a b).sign) (hr : ∀ a b t, (code a b t).Calls SMOp.Reading)
    (d : Nat) (h : List (Nat × SMOp K V)) (t : τ) {l : List (K × V)} (hl : (SLR.run (CmpCode.at code d) ⟨newSkipList, t⟩ h).2.sl.Holds l)
    (first last : K) (t' : τ) :
    (match SLR.findRange (CmpCode.at code d) first last ⟨(SLR.run (CmpCode.at code d) ⟨newSkipList, t⟩ h).2.sl, t'⟩ with
    | .ok it s => s.sl = (SLR.run (CmpCode.at code d) ⟨newSkipList, t⟩ h).2.sl ∧ s.sl.observeIter it =
        if ∃ e ∈ l, c last e.1 < 0 ∧ c e.1 first < 0 then .panic else .ret (l.filter (fun e => !decide (c e.1 first < 0) && !decide (c last e.1 < 0)))
    | .panic s => s.sl = (SLR.run (CmpCode.at code d) ⟨newSkipList, t⟩ h).2.sl ∧ ∃ a u, (code a first u).CanPanic ∨ (code a last u).CanPanic
    | .diverge => True) ∧
    ∀ guard : τ → Nat, (∀ a b t, (code a b t).Guarded guard (guard t)) → guard t' < d →
      ∃ it s, SLR.findRange (CmpCode.at code d) first last ⟨(SLR.run (CmpCode.at code d) ⟨newSkipList, t⟩ h).2.sl, t'⟩ = .ok it s := by
  obtain ⟨ids, l', _, hi⟩ := SLR.run_fallible hc hr ha d h t (SLInv.new (V := V) _)
  obtain rfl := Holds.inj hi hl
  generalize (SLR.run (CmpCode.at code d) ⟨newSkipList, t⟩ h).2.sl = sl at hi hl
  have hr' := reads_at hr sl d
  have he := hi.findRange_effect hc (frozen_agrees ha d hr') first last t'
  have hs := (same_findRange hr' first last sl.prevsCache t').1
  have hs : SLR.findRange (CmpCode.at code d) first last ⟨sl, t'⟩ = SLM.findRange (frozen hr') first last ⟨sl, t'⟩ := hs
  have hp : ∀ {a b u u'}, frozen hr' a b u = .panic u' → (code a b u).CanPanic := by
    intro a b u u' e
    have := frozen_panic hr' e
    cases d with
    | zero => cases this
    | succ d => exact run_panics _ this
  rw [hs]
  refine ⟨?_, fun guard hg ht => ?_⟩
  · cases e : SLM.findRange (frozen hr') first last ⟨sl, t'⟩ with
    | ok it s => simp only [e] at he; exact he
    | panic s =>
      simp only [e] at he
      obtain ⟨h1, a, u, u', h2⟩ := he
      exact ⟨h1, a, u, h2.imp hp hp⟩
    | diverge => trivial
  · exact findRange_guarded hc hi hr' (frozen_agrees ha d hr') (R := guard t') (fun a b u hu => by
      obtain ⟨r, u', h1, h2⟩ := at_guarded hc hr ha hg d hi a b u (by omega)
      exact ⟨r, u', h1, by omega⟩) first last (Nat.le_refl _)

/-- C150, the last part: without a guard there is no end. If the compare function always begins by looking up something in its list, then after the first `Insert`
no operation with a key returns, however deep the stack. -/
theorem C150_endless (hc : LawfulCmp c) (ha : ∀ a b t, (code a b t).Answers (c a b).sign) (hr : ∀ a b t, (code a b t).Calls SMOp.Reading)
    (hx : ∀ a b t, (code a b t).Recurs) (d : Nat) (t : τ) (rnd : Nat) (k : K) (v : V) (rnd' : Nat) (op : SMOp K V) (ho : op.key?.isSome = true) :
    (SLR.run (CmpCode.at code d) ⟨newSkipList, t⟩ [(rnd, .insert k v), (rnd', op)]).1 = [.unit, .hung] := by
  have hi := SLInv.new (V := V) (SLImpl.func c).less
  obtain ⟨sl1, ids1, a1, a2⟩ := hi.exec (impl := .func c) hc rnd (.insert k v)
  have hr0 := reads_at hr (newSkipList : SL K V) d
  have hf := exec_follows (frozen_agrees ha d hr0) t a1
  have h0 : opCalls c (newSkipList : SL K V) (.insert k v) = [] := rfl
  simp only [h0, Follows, callAll, GoM.pure_apply] at hf
  have he : SLR.exec (CmpCode.at code d) rnd (.insert k v) ⟨newSkipList, t⟩ = .ok .unit ⟨sl1, t⟩ :=
    (exec_frozen hr0 rnd (.insert k v) (newSkipList : SL K V).prevsCache t).trans hf
  have hne : (SMap.step (SLImpl.func c).less ([] : List (K × V)) (.insert k v)).2 ≠ [] := by simp [SMap.step, SMap.insert]
  have he2 := exec_stuck hc a2 hne (reads_at hr sl1 d) (at_recurs hr hx hc a2 hne d) rnd' op ho t
  simp only [SLR.run, he, he2]

/-! ## Examples -/

/-- A compare function that looks up the key of the entry unless it is already doing so (`t ≠ 0`), and counts the entries it sees. -/
def watching (a b : Int) (t : Nat × Nat) : CmpCode Int Int (Nat × Nat) :=
  if t.1 = 0 then .answer (a - b) t
  else .call (0, t.2) 0 (.lowerBound a) (fun ob u => .answer (a - b) (1, match ob with | .entries l => u.2 + l.length | _ => u.2))

example : (∀ a b t, (watching a b t).Answers (a - b).sign) ∧ (∀ a b t, (watching a b t).Calls SMOp.Reading) ∧
    ∀ a b t, (watching a b t).Guarded (fun t => if t.1 = 0 then 0 else 1) (if t.1 = 0 then 0 else 1) := by
  refine ⟨fun a b t => ?_, fun a b t => ?_, fun a b t => ?_⟩ <;> simp only [watching] <;> split
  · rfl
  · intro ob t; rfl
  · trivial
  · exact ⟨trivial, fun _ _ => trivial⟩
  · next h => simp [CmpCode.Guarded, h]
  · simp [CmpCode.Guarded]

example : (SLR.run (CmpCode.at watching 2) ⟨newSkipList, (1, 0)⟩ meddlingHist).1 =
    [.unit, .unit, .unit, .entries [(1, 10), (2, 20), (5, 50)], .flag true, .flag true, .val none] := by decide +kernel

/-- `FindRange`, seen by the iteration: first ≤ last, and first > last with an entry between. -/
example : [(1, 2), (2, 2), (5, 1)].map (fun (a, b) =>
      match SLR.findRange (CmpCode.at watching 2) a b ⟨(SLR.run (CmpCode.at watching 2) ⟨newSkipList, (1, 0)⟩ (meddlingHist.take 3)).2.sl, (1, 0)⟩ with
      | .ok it s => s.sl.observeIter it
      | .panic _ => .ret []
      | .diverge => .diverge) = [.ret [(1, 10), (2, 20)], .ret [(2, 20)], .panic] := by decide +kernel

/-- It did look. -/
example : (SLR.run (CmpCode.at watching 2) ⟨newSkipList, (1, 0)⟩ meddlingHist).2.st = (1, 20) := by decide +kernel

/-- A compare function without a guard. -/
example : (SLR.run (CmpCode.at (fun a b t => CmpCode.call t 0 (.has a) (fun _ t => .answer (a - b) t) : Int → Int → Unit → CmpCode Int Int Unit) 5)
    ⟨newSkipList, ()⟩ [(0, .insert 1 10), (0, .len), (0, .find 1)]).1 = [.unit, .num 1, .hung] := by decide +kernel

end Stl4go
