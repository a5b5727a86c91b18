import Verif.Proofs.BuiltinSetLiveTame
import Verif.Proofs.Simple
/-!
# Properties C128–C130: `/repo/builtin_set.go` when sets change during loops over them

`rt` makes the choices of the Go runtime: which of the entries that a loop may produce comes next, if any, and whether assigning replaces an equal
key. `extra` bounds the loops, beyond the number of entries there are at the start.
-/
namespace Stl4go
variable {K σ α : Type} [GoEq K]

/-! ## C128 -/

/-- C128: all results of a history are those of mathematical sets, whatever the runtime does in loops over maps that change. -/
theorem C128_history [LawfulGoEq K] (rt : LiveRt K) (extra : Nat) (ops : List (BOp K)) (hl : BState.empty.Legal ops) :
    BState.empty.Matches ops (LiveWorld.empty.run rt extra ops) ∧ (LiveWorld.empty.after rt extra ops).Is (BState.empty.after ops) :=
  ⟨(LiveWorld.run_ok rt extra ops _ _ LRel.empty hl).1, (LiveWorld.run_ok rt extra ops _ _ LRel.empty hl).2.is⟩

/-- C128: `ForEachIf` with a callback that uses any sets, also that of the loop, calls it and leaves the sets in a way allowed by Go's rules. If it
does not end, the callback does not, or it has been called more than `extra` times for members that were inserted during the loop. -/
theorem C128_forEachIf [LawfulGoEq K] (rt : LiveRt K) (extra : Nat) (ops : List (BOp K)) (hl : BState.empty.Legal ops) (r : MRef)
    (cb : σ → K → BProg K (σ × Bool)) (t : σ) :
    match Live.forEachIf rt extra r (fun t k => (cb t k).exec rt extra) t (LiveWorld.empty.after rt extra ops) with
    | .ok t' w' => ∃ n v, BWalk.Loop r cb n t (BWalk.start (BState.empty.after ops) r) (some (.ok t' v)) ∧ w'.Is v.st
    | .panic w' => ∃ n v, BWalk.Loop r cb n t (BWalk.start (BState.empty.after ops) r) (some (.panic v)) ∧ w'.Is v.st
    | .diverge => (∃ n, BWalk.Loop r cb n t (BWalk.start (BState.empty.after ops) r) (some .diverge)) ∨
        ∃ m : Nat, HasSize ((BState.empty.after ops).of r) m ∧ BWalk.Loop r cb (m + extra + 1) t (BWalk.start (BState.empty.after ops) r) none := by
  have h := (LiveWorld.run_ok rt extra ops _ _ LRel.empty hl).2
  have hx := rangeLoop_ok rt extra r _ cb (((LiveWorld.empty.after rt extra ops).entries r).length + extra + 1) [] t _ _ (WalkRel.begin h r)
  unfold Live.forEachIf Live.range
  revert hx
  cases Live.rangeLoop rt r (LiveWorld.empty.after rt extra ops).ids (fun t k => (cb t k).exec rt extra)
    (((LiveWorld.empty.after rt extra ops).entries r).length + extra + 1) [] t (LiveWorld.empty.after rt extra ops) with
  | ok t' w' => rintro ⟨n, v, -, h1, h2⟩; exact ⟨n, v, h1, h2.is⟩
  | panic w' => rintro ⟨n, v, -, h1, h2⟩; exact ⟨n, v, h1, h2.is⟩
  | diverge =>
    rintro (⟨n, -, h1⟩ | h1)
    · exact .inl ⟨n, h1⟩
    · exact .inr ⟨_, ⟨_, h.of r, by rw [List.length_map]⟩, h1⟩

/-- C128: likewise for `ForEach`. -/
theorem C128_forEach [LawfulGoEq K] (rt : LiveRt K) (extra : Nat) (ops : List (BOp K)) (hl : BState.empty.Legal ops) (r : MRef)
    (cb : σ → K → BProg K σ) (t : σ) :
    match Live.forEach rt extra r (fun t k => (cb t k).exec rt extra) t (LiveWorld.empty.after rt extra ops) with
    | .ok t' w' => ∃ n v, BWalk.Loop r (BProg.always cb) n t (BWalk.start (BState.empty.after ops) r) (some (.ok t' v)) ∧ w'.Is v.st
    | .panic w' => ∃ n v, BWalk.Loop r (BProg.always cb) n t (BWalk.start (BState.empty.after ops) r) (some (.panic v)) ∧ w'.Is v.st
    | .diverge => (∃ n, BWalk.Loop r (BProg.always cb) n t (BWalk.start (BState.empty.after ops) r) (some .diverge)) ∨
        ∃ m : Nat, HasSize ((BState.empty.after ops).of r) m ∧
          BWalk.Loop r (BProg.always cb) (m + extra + 1) t (BWalk.start (BState.empty.after ops) r) none := by
  rw [forEach_always]
  exact C128_forEachIf rt extra ops hl r (BProg.always cb) t

/-- A runtime that produces the last entry it may. -/
def lastEntry : LiveRt K := { pick := fun _ l => l.length - 1, replace := true }
/-- A runtime that produces only the entries it has to. -/
def oldEntries : LiveRt K := { pick := fun _ l => l.length, replace := false }

/-- A callback that replaces 1 by 5, and inserts 9 into another set. -/
def swapOne : List Int → Int → BProg Int (List Int) := fun l k =>
  if k = 1 then .call (.remove (some 0) 1) (fun _ => .call (.insert (some 0) 5) (fun _ => .ret (l ++ [k])))
  else .call (.insert (some 1) 9) (fun _ => .ret (l ++ [k]))

/-- With one runtime the callback gets the new member, with the other it does not. -/
example : (match Live.forEach lastEntry 9 (some 0) (fun t k => (swapOne t k).exec lastEntry 9) []
      (LiveWorld.empty.after lastEntry 9 [.setOf [1, 2], .setOf [8]]) with
    | .ok l w => some (l, (w.maps 0).map (·.key), (w.maps 1).map (·.key)) | _ => none) = some ([2, 1, 5], [2, 5], [8, 9]) ∧
  (match Live.forEach oldEntries 9 (some 0) (fun t k => (swapOne t k).exec oldEntries 9) []
      (LiveWorld.empty.after oldEntries 9 [.setOf [1, 2], .setOf [8]]) with
    | .ok l w => some (l, (w.maps 0).map (·.key), (w.maps 1).map (·.key)) | _ => none) = some ([1, 2], [2, 5], [8, 9]) := by decide +kernel

/-! ## C129 -/

/-- C129: whatever the callback does, the key it gets is a member of the set when it gets it: checking this first changes nothing. -/
theorem C129_member [LawfulGoEq K] (rt : LiveRt K) (extra : Nat) (ops : List (BOp K)) (hl : BState.empty.Legal ops) (r : MRef)
    (cb : σ → K → BProg K (σ × Bool)) (t : σ) :
    Live.forEachIf rt extra r (fun t k => (BProg.checked r cb t k).exec rt extra) t (LiveWorld.empty.after rt extra ops) =
      Live.forEachIf rt extra r (fun t k => (cb t k).exec rt extra) t (LiveWorld.empty.after rt extra ops) :=
  rangeLoop_checked rt extra r _ cb _ [] t _ _ (WalkRel.begin (LiveWorld.run_ok rt extra ops _ _ LRel.empty hl).2 r)

theorem calm_start [LawfulGoEq K] (rt : LiveRt K) (extra : Nat) (ops : List (BOp K)) (hl : BState.empty.Legal ops) (r : MRef)
    (hr : RefOk (BState.empty.after ops).next r) (m : Nat) (hm : HasSize ((BState.empty.after ops).of r) m) :
    (BWalk.start (BState.empty.after ops) r).Calm r ((BState.empty.after ops).of r) m := by
  obtain ⟨l, h1, h2⟩ := hm
  exact ⟨hr, (LiveWorld.run_ok rt extra ops _ _ LRel.empty hl).2.fine, fun _ => rfl, fun _ h => h, fun _ h => h, l, h1, by omega⟩

/-- C129: a callback that does not add members to the set of the loop, but may remove any and may do anything to other sets: it gets members only,
each at most once, and all that are left at the end; the loop ends, and adds no members. -/
theorem C129_visits [LawfulGoEq K] (rt : LiveRt K) (extra : Nat) (ops : List (BOp K)) (hl : BState.empty.Legal ops) (r : MRef)
    (hr : RefOk (BState.empty.after ops).next r) (cb : σ → K → BProg K σ) (hcb : ∀ t k, (cb t k).Tame r) (t : σ) :
    match Live.forEach rt extra r (fun t k => (BProg.noting cb t k).exec rt extra) (t, []) (LiveWorld.empty.after rt extra ops) with
    | .ok t' w' => t'.2.Pairwise (fun x y => GoEq.eq x y = false) ∧ (∀ x ∈ t'.2, (BState.empty.after ops).of r x = true) ∧
        (∀ k, w'.set r k = true → (BState.empty.after ops).of r k = true ∧ ∃ x ∈ t'.2, GoEq.eq k x = true)
    | .panic w' => ∀ k, w'.set r k = true → (BState.empty.after ops).of r k = true
    | .diverge => False := by
  have htame : ∀ t k, (BProg.always (BProg.noting cb) t k).Tame r :=
    fun t k => BProg.Only.bind (BProg.Only.bind (hcb _ _) (fun _ => trivial)) (fun _ => trivial)
  have h := C128_forEach rt extra ops hl r (BProg.noting cb) (t, [])
  have hw := (LiveWorld.run_ok rt extra ops _ _ LRel.empty hl).2
  have hsize : HasSize ((BState.empty.after ops).of r) (((LiveWorld.empty.after rt extra ops).entries r).length : Nat) := ⟨_, hw.of r, by rw [List.length_map]⟩
  have hc := calm_start rt extra ops hl r hr _ hsize
  revert h
  cases Live.forEach rt extra r (fun t k => (BProg.noting cb t k).exec rt extra) (t, []) (LiveWorld.empty.after rt extra ops) with
  | ok t' w' =>
    rintro ⟨n, v, h1, h2⟩
    obtain ⟨⟨m, hN⟩, ho⟩ := h1.noted hcb _ ⟨hc, List.Pairwise.nil, by simp, by simp, fun k hk => .inl hk⟩
    refine ⟨hN.distinct, hN.inS, fun k hk => ?_⟩
    rw [h2 r] at hk
    refine ⟨hN.calm.inS k hk, ?_⟩
    rcases hN.all k hk with h3 | h3
    · rw [ho k] at h3; cases h3
    · exact h3
  | panic w' =>
    rintro ⟨n, v, h1, h2⟩ k hk
    obtain ⟨-, m, hm⟩ := h1.calm htame _ hc
    rw [h2 r] at hk
    exact hm.inS k hk
  | diverge =>
    rintro (⟨n, h1⟩ | ⟨m, hm, h1⟩)
    · exact (h1.calm htame _ hc).2
    · have := (h1.calm htame _ (calm_start rt extra ops hl r hr m hm)).1
      omega

/-- A callback that removes the two members above and below the one it gets. -/
def lonely : Unit → Int → BProg Int Unit := fun _ k => .call (.removeN (some 0) [k - 1, k + 1]) (fun _ => .ret ())

example : ∀ t k, (lonely t k).Tame (some 0) := fun _ _ => ⟨rfl, fun _ => trivial⟩

example : (match Live.forEach lastEntry 0 (some 0) (fun t k => (BProg.noting lonely t k).exec lastEntry 0) ((), [])
      (LiveWorld.empty.after lastEntry 0 [.setOf [1, 2, 3, 4, 5, 6]]) with
    | .ok t w => some (t.2, (w.maps 0).map (·.key)) | _ => none) = some ([6, 4, 2], [2, 4, 6]) := by decide +kernel

/-- C129: `ForEach` with a callback that removes the members with a property `p` ends, and leaves exactly the others; other sets stay as they are. -/
theorem C129_sieve [LawfulGoEq K] (rt : LiveRt K) (extra : Nat) (ops : List (BOp K)) (hl : BState.empty.Legal ops) (r : MRef)
    (hr : RefOk (BState.empty.after ops).next r) (p : K → Bool) (hp : ∀ a b, GoEq.eq a b = true → p a = p b) :
    ∃ w', Live.forEach rt extra r (fun t k => (BProg.sieve r p t k).exec rt extra) () (LiveWorld.empty.after rt extra ops) = .ok () w' ∧
      (∀ x, w'.set r x = ((BState.empty.after ops).of r x && !p x)) ∧ ∀ r', r' ≠ r → w'.set r' = (BState.empty.after ops).of r' := by
  have htame : ∀ t k, (BProg.always (BProg.sieve r p) t k).Tame r := by
    intro t k
    refine BProg.Only.bind ?_ (fun _ => trivial)
    unfold BProg.sieve
    split
    · exact ⟨rfl, fun _ => trivial⟩
    · trivial
  have h := C128_forEach rt extra ops hl r (BProg.sieve r p) ()
  have hw := (LiveWorld.run_ok rt extra ops _ _ LRel.empty hl).2
  have hsize : HasSize ((BState.empty.after ops).of r) (((LiveWorld.empty.after rt extra ops).entries r).length : Nat) := ⟨_, hw.of r, by rw [List.length_map]⟩
  have hc := calm_start rt extra ops hl r hr _ hsize
  have start : ∀ x, (BWalk.start (BState.empty.after ops) r).st.of r x =
      ((BState.empty.after ops).of r x && ((BWalk.start (BState.empty.after ops) r).owed x || !p x)) := by
    intro x
    simp only [BWalk.start]
    cases (BState.empty.after ops).of r x <;> rfl
  revert h
  cases Live.forEach rt extra r (fun t k => (BProg.sieve r p t k).exec rt extra) () (LiveWorld.empty.after rt extra ops) with
  | ok t' w' =>
    rintro ⟨n, v, h1, h2⟩
    have h3 := h1.sieve (st0 := BState.empty.after ops) hp (fun _ => rfl) hr start (fun _ _ => rfl)
    refine ⟨w', rfl, fun x => ?_, fun r' hr' => ?_⟩
    · rw [h2 r, h3 r x]
      simp
    · funext x
      rw [h2 r', h3 r' x]
      simp [hr']
  | panic w' =>
    rintro ⟨n, v, h1, h2⟩
    exact (h1.sieve (st0 := BState.empty.after ops) hp (fun _ => rfl) hr start (fun _ _ => rfl)).elim
  | diverge =>
    rintro (⟨n, h1⟩ | ⟨m, hm, h1⟩)
    · exact (h1.calm htame _ hc).2.elim
    · have := (h1.calm htame _ (calm_start rt extra ops hl r hr m hm)).1
      omega

example : (match Live.forEach lastEntry 0 (some 0) (fun t k => (BProg.sieve (some 0) (fun k : Int => decide (k % 3 = 0)) t k).exec lastEntry 0) ()
      (LiveWorld.empty.after lastEntry 0 [.setOf [1, 2, 3, 4, 5, 6, 9], .setOf [3]]) with
    | .ok _ w => some ((w.maps 0).map (·.key), (w.maps 1).map (·.key)) | _ => none) = some ([1, 2, 4, 5], [3]) := by decide +kernel

/-! ## C130 -/

/-- C130: `ForEach` ends, if its callback does. -/
def C130_statement : Prop := ∀ (K σ : Type) [GoEq K] [LawfulGoEq K] (rt : LiveRt K) (ops : List (BOp K)) (r : MRef) (cb : σ → K → BProg K σ) (t : σ),
  BState.empty.Legal ops → RefOk (BState.empty.after ops).next r → (∀ t k, (cb t k).Ends) →
  ∃ extra, Live.forEach rt extra r (fun t k => (cb t k).exec rt extra) t (LiveWorld.empty.after rt extra ops) ≠ .diverge

/-- A callback that inserts the next integer. -/
def insertNext : Unit → Int → BProg Int Unit := fun _ k => .call (.insert (some 0) (k + 1)) (fun _ => .ret ())

/-- A runtime that produces the first entry it may. -/
def firstEntry : LiveRt K := { pick := fun _ _ => 0, replace := false }

/-- C130: a loop over {0} that inserts the next integer every time goes on forever if the runtime always produces the new entry. -/
theorem C130_forever (extra : Nat) :
    Live.forEach firstEntry extra (some 0) (fun t k => (insertNext t k).exec firstEntry extra) () (LiveWorld.empty.after firstEntry extra [.setOf [0]]) = .diverge := by
  refine chase firstEntry (fun _ _ => rfl) (fun n => (n : Int)) ?_ _ ?_ _ 0 [] _ rfl rfl rfl (by simp)
  · intro n i hi
    show decide (_ = _) = false
    rw [decide_eq_false_iff_not]
    show ¬ ((n + 1 : Nat) : Int) = (i : Int)
    omega
  · intro n w hw
    have hv : (BOp.insert (some 0) ((n : Int) + 1)).Valid w.next := by
      show 0 < w.next
      omega
    simp only [insertNext, BProg.exec, GoM.bind_def, BOp.liveIn]
    rw [if_pos hv]
    rfl

/-- C130 is false. -/
theorem C130_counterexample : ¬ C130_statement := by
  intro h
  obtain ⟨extra, he⟩ := h Int Unit firstEntry [.setOf [0]] (some 0) insertNext () ⟨trivial, trivial⟩ (by decide) (fun _ _ => ⟨trivial, fun _ => trivial⟩)
  exact he (C130_forever extra)

/-- C130 for callbacks that do not insert into the set of the loop: it ends, after at most as many calls as there are members at the start. Missing:
callbacks that insert, for which it is false. -/
theorem C130_ends_partial [LawfulGoEq K] (rt : LiveRt K) (extra : Nat) (ops : List (BOp K)) (hl : BState.empty.Legal ops) (r : MRef)
    (hr : RefOk (BState.empty.after ops).next r) (cb : σ → K → BProg K (σ × Bool)) (hcb : ∀ t k, (cb t k).Tame r) (t : σ) :
    Live.forEachIf rt extra r (fun t k => (cb t k).exec rt extra) t (LiveWorld.empty.after rt extra ops) ≠ .diverge := by
  intro he
  have h := C128_forEachIf rt extra ops hl r cb t
  rw [he] at h
  have hw := (LiveWorld.run_ok rt extra ops _ _ LRel.empty hl).2
  rcases h with ⟨n, h1⟩ | ⟨m, hm, h1⟩
  · exact (h1.calm hcb _ (calm_start rt extra ops hl r hr _ ⟨_, hw.of r, rfl⟩)).2
  · have := (h1.calm hcb _ (calm_start rt extra ops hl r hr m hm)).1
    omega

/-- C130: and whatever the callback inserts, the loop ends if the runtime chooses not to produce new entries. -/
theorem C130_old [LawfulGoEq K] (rt : LiveRt K) (hrt : ∀ n l, l.length ≤ rt.pick n l) (extra : Nat) (ops : List (BOp K)) (hl : BState.empty.Legal ops)
    (r : MRef) (cb : σ → K → BProg K (σ × Bool)) (hcb : ∀ t k, (cb t k).Ends) (t : σ) :
    Live.forEachIf rt extra r (fun t k => (cb t k).exec rt extra) t (LiveWorld.empty.after rt extra ops) ≠ .diverge := by
  have hw := (LiveWorld.run_ok rt extra ops _ _ LRel.empty hl).2
  exact rangeLoop_old rt hrt extra r _ cb hcb _ [] t _ _ (WalkRel.begin hw r) ⟨_, hw.of r, by rw [List.length_map]; omega⟩

example : (match Live.forEach oldEntries 0 (some 0) (fun t k => (insertNext t k).exec oldEntries 0) () (LiveWorld.empty.after oldEntries 0 [.setOf [0, 7]]) with
    | .ok _ w => some ((w.maps 0).map (·.key)) | _ => none) = some [0, 7, 1, 8] := by decide +kernel

/-- C130: with keys that are not equal to themselves also `s.Update(s)` may go on forever. -/
theorem C130_update_nan (k : K) (hk : GoEq.eq k k = false) (extra : Nat) :
    (BOp.update (some 0) (some 0)).callLive firstEntry extra (LiveWorld.empty.after firstEntry extra [.setOf [k]]) =
      (.hung, LiveWorld.empty.after firstEntry extra [.setOf [k]]) := by
  have : Live.update firstEntry extra (some 0) (some 0) (LiveWorld.empty.after firstEntry extra [.setOf [k]]) = .diverge :=
    chase firstEntry (fun _ _ => rfl) (fun _ => k) (fun _ _ _ => hk) _ (fun _ _ _ => rfl) _ 0 [] _ rfl rfl rfl (by simp)
  simp only [BOp.callLive, BOp.live, GoM.bind_def, this]

example (extra : Nat) : ((BOp.update (some 0) (some 0)).callLive firstEntry extra (LiveWorld.empty.after firstEntry extra [.setOf [NanInt.nan]])).1 = .hung := by
  rw [C130_update_nan _ rfl]

end Stl4go
