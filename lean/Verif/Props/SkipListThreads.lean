import Verif.Proofs.SkipListThreadMap
import Verif.Props.SkipList
/-!
# Property C180: goroutines that share a skip list

Any number of goroutines make one call each on the same skip list, at the same time: searches, `Len`, `ForEach`, `ForEachMutable`, and reads and writes through the pointer that `Find` returns. `interleaveSG`
lets them access fields one at a time, in an order given by a schedule, which is arbitrary. `SGCall.sees` and `SGCall.changes` are the nodes whose value a call looks at and writes.
-/
namespace Stl4go
variable {K V : Type} {impl : SLImpl K}

/-- C180, alone: the goroutine of a call, if no other does anything, does what the call does: the same result, the same list, or the same panic. This holds for every list and every compare function. -/
theorem C180_alone (impl : SLImpl K) (c : SGCall K V) (sl : SL K V) : ((c.thread impl sl.nodes.length).run sl).pair = c.call impl sl := c.run_thread impl sl

/-- C180, structure: whatever the goroutines do, and even if they write the same values, only values change: the links, levels, keys and the counter stay. -/
theorem C180_structure (cs : Nat → SGCall K V) (sl : SL K V) (schedule : List Nat) :
    (interleaveSG (fun i => (cs i).thread impl sl.nodes.length) sl schedule).2.blank = sl.blank := interleaveSG_blank schedule _ sl

/-- The outcome of the goroutine alone is that of the call. -/
theorem outcome_call (impl : SLImpl K) (c : SGCall K V) (sl : SL K V) :
    ((c.thread impl sl.nodes.length).run sl).outcome = (do let r ← c.call impl sl; return r.1) ∧
    ∀ r sl', c.call impl sl = .ret (r, sl') → (c.thread impl sl.nodes.length).run sl = .ok r sl' := by
  rw [← c.run_thread impl sl]
  cases (c.thread impl sl.nodes.length).run sl with
  | ok a s => exact ⟨rfl, fun r sl' h => by injection h with h; injection h with h1 h2; rw [h1, h2]⟩
  | panic s => exact ⟨rfl, fun r sl' h => nomatch h⟩
  | diverge => exact ⟨rfl, fun r sl' h => nomatch h⟩

/-- C180, results: if no other goroutine writes a value that goroutine `i` looks at, then once it has ended it has the result, or the panic, of its call made alone on the list of the beginning, and the values it
looks at are as that call alone would have left them. In particular `Has`, `LowerBound`, `UpperBound` and `Len` are never disturbed. -/
theorem C180_results (cs : Nat → SGCall K V) (sl : SL K V) (i : Nat) (ha : SGAlone impl sl cs i) (schedule : List Nat) {o : Outcome (SGRet K V)}
    (he : ((interleaveSG (fun i => (cs i).thread impl sl.nodes.length) sl schedule).1 i).ended = some o) :
    o = (do let r ← (cs i).call impl sl; return r.1) ∧
    ∀ r sl', (cs i).call impl sl = .ret (r, sl') → ∀ p, (cs i).sees impl sl p →
      (interleaveSG (fun i => (cs i).thread impl sl.nodes.length) sl schedule).2.valAt p = sl'.valAt p := by
  obtain ⟨h1, h2⟩ := interleaveSG_side (sl := sl) schedule (fun j => (cs j).within impl sl) rfl i ha
  rw [h1] at he
  obtain ⟨e1, e2⟩ := SGThread.alone_ended_run _ _ _ he
  obtain ⟨c1, c2⟩ := outcome_call impl (cs i) sl
  refine ⟨by rw [e1, c1], fun r sl' hc p hp => ?_⟩
  rw [h2 p hp, e2, (SGThread.alone_run _ sl _ (Nat.le_refl _)).2 sl' (.inl ⟨r, c2 r sl' hc⟩)]

/-- C180, progress: a goroutine that the scheduler has let run as often as its call alone would access fields has ended. The others cannot hold it up. -/
theorem C180_progress (cs : Nat → SGCall K V) (sl : SL K V) (i : Nat) (ha : SGAlone impl sl cs i) (schedule : List Nat)
    (hn : ((cs i).thread impl sl.nodes.length).steps sl ≤ schedule.count i) :
    ((interleaveSG (fun i => (cs i).thread impl sl.nodes.length) sl schedule).1 i).ended = some (do let r ← (cs i).call impl sl; return r.1) := by
  rw [(interleaveSG_side (sl := sl) schedule (fun j => (cs j).within impl sl) rfl i ha).1, ← (outcome_call impl (cs i) sl).1]
  exact (SGThread.alone_run _ sl _ hn).1

/-- C180, the rest: values that no call writes are as before. -/
theorem C180_rest (cs : Nat → SGCall K V) (sl : SL K V) (schedule : List Nat) (p : Nat) (hp : ∀ j ∈ schedule, ¬ (cs j).changes impl sl p) :
    (interleaveSG (fun i => (cs i).thread impl sl.nodes.length) sl schedule).2.valAt p = sl.valAt p :=
  interleaveSG_spares schedule (fun j => (cs j).within impl sl) rfl hp

/-- C180, one after another: if the goroutines `order` have all returned, and no other has run, then the list and the results are those of the calls made one after another, in the order `order`. The goroutines may be
listed in any order. -/
theorem C180_serial (cs : Nat → SGCall K V) (sl : SL K V) (order : List Nat) (hn : order.Nodup) (ha : ∀ i ∈ order, SGAlone impl sl cs i) (schedule : List Nat)
    (hs : ∀ i ∈ schedule, i ∈ order) (r : Nat → SGRet K V)
    (he : ∀ i ∈ order, ((interleaveSG (fun i => (cs i).thread impl sl.nodes.length) sl schedule).1 i).ended = some (.ret (r i))) :
    SGCall.serial impl cs order sl = .ret (order.map r, (interleaveSG (fun i => (cs i).thread impl sl.nodes.length) sl schedule).2) := by
  have side := fun i hi => interleaveSG_side (sl := sl) schedule (fun j => (cs j).within impl sl) rfl i (ha i hi)
  have ends : ∀ i ∈ order, _ := fun i hi => SGThread.alone_ended_run ((cs i).thread impl sl.nodes.length) sl (schedule.count i) (o := .ret (r i))
    (by rw [← (side i hi).1]; exact he i hi)
  obtain ⟨G, g1, g2, g3, g4⟩ := serial_alone sl r order hn ha (fun i hi => (ends i hi).1.symm) sl rfl (fun _ _ _ _ => rfl)
  rw [g1]
  congr 2
  refine blank_ext (g2.trans (C180_structure cs sl schedule).symm) (fun p => ?_)
  by_cases h : ∃ i ∈ order, (cs i).changes impl sl p
  · obtain ⟨i, hi, hc⟩ := h
    have hp := (cs i).own impl sl hc
    rw [g3 i hi p hp, (side i hi).2 p hp, (ends i hi).2]
  · rw [g4 p (fun i hi hc => h ⟨i, hi, hc⟩), C180_rest cs sl schedule p (fun i hi hc => h ⟨i, hs i hi, hc⟩)]

/-- C180, no data race: at no time do two goroutines have the same field for their next access, unless both would only read it. -/
theorem C180_race (cs : Nat → SGCall K V) (sl : SL K V) (i j : Nat) (hij : i ≠ j) (hi : SGAlone impl sl cs i) (hj : SGAlone impl sl cs j) (schedule : List Nat) {p : SGLoc} {w w' : Bool}
    (hi' : ((interleaveSG (fun i => (cs i).thread impl sl.nodes.length) sl schedule).1 i).upcoming = some (p, w))
    (hj' : ((interleaveSG (fun i => (cs i).thread impl sl.nodes.length) sl schedule).1 j).upcoming = some (p, w')) :
    w = false ∧ w' = false := by
  have key : ∀ k (w : Bool), ((interleaveSG (fun i => (cs i).thread impl sl.nodes.length) sl schedule).1 k).upcoming = some (p, w) →
      (∀ q, p = .value q → (cs k).sees impl sl q) ∧ (w = true → ∃ q, p = .value q ∧ (cs k).changes impl sl q) := by
    intro k w hk
    have hw := interleaveSG_within (sl := sl) schedule (fun j => (cs j).within impl sl) rfl k
    cases hx : (interleaveSG (fun i => (cs i).thread impl sl.nodes.length) sl schedule).1 k <;> rw [hx] at hk hw <;>
      simp only [SGThread.upcoming, Option.some.injEq, Prod.mk.injEq, reduceCtorEq] at hk <;> obtain ⟨rfl, rfl⟩ := hk
    · exact ⟨fun q e => (nomatch e), fun e => (nomatch e)⟩
    · exact ⟨fun q e => (nomatch e), fun e => (nomatch e)⟩
    · exact ⟨fun q e => (nomatch e), fun e => (nomatch e)⟩
    · exact ⟨fun q e => (nomatch e), fun e => (nomatch e)⟩
    · exact ⟨fun q e => by injection e with e; exact e ▸ hw.1, fun e => nomatch e⟩
    · exact ⟨fun q e => by injection e with e; exact e ▸ (cs k).own impl sl hw.1, fun _ => ⟨_, rfl, hw.1⟩⟩
  obtain ⟨a1, a2⟩ := key i w hi'
  obtain ⟨b1, b2⟩ := key j w' hj'
  refine ⟨?_, ?_⟩
  · cases w with
    | false => rfl
    | true => obtain ⟨q, e, hc⟩ := a2 rfl; exact absurd (b1 q e) (hj i hij q hc)
  · cases w' with
    | false => rfl
    | true => obtain ⟨q, e, hc⟩ := b2 rfl; exact absurd (a1 q e) (hi j (Ne.symm hij) q hc)

/-- C180, maps: on a list that a history has built, with a lawful order, goroutines of which none writes to a key that another looks at get what they would get from the finite map of that history. Once the goroutines
`order` have ended, and no other has run, the list behaves as the map after all their updates. No goroutine panics. -/
theorem C180_map (hl : impl.Lawful) {h : List (Nat × SMOp K V)} {sl : SL K V} (hb : SL.Built impl h sl) (cs : Nat → SGCall K V) (ha : SGApart impl.less cs) (schedule : List Nat) :
    (∀ i o, ((interleaveSG (fun i => (cs i).thread impl sl.nodes.length) sl schedule).1 i).ended = some o → o = .ret ((cs i).spec impl.less (SMap.after impl.less h)).1) ∧
    ∀ order : List Nat, order.Nodup → (∀ i ∈ schedule, i ∈ order) →
      (∀ i ∈ order, ((interleaveSG (fun i => (cs i).thread impl sl.nodes.length) sl schedule).1 i).ended ≠ none) →
      (interleaveSG (fun i => (cs i).thread impl sl.nodes.length) sl schedule).2.Behaves impl (order.foldl (fun m i => ((cs i).spec impl.less m).2) (SMap.after impl.less h)) := by
  obtain ⟨ids, hi⟩ := hb.inv hl
  have res : ∀ i o, ((interleaveSG (fun i => (cs i).thread impl sl.nodes.length) sl schedule).1 i).ended = some o → o = .ret ((cs i).spec impl.less (SMap.after impl.less h)).1 := by
    intro i o he
    obtain ⟨sl', a1, _⟩ := (cs i).call_spec hl hi
    rw [(C180_results cs sl i (ha.alone hl hi i) schedule he).1, a1]
    rfl
  refine ⟨res, fun order hn hs he => ?_⟩
  have := C180_serial cs sl order hn (fun i _ => ha.alone hl hi i) schedule hs (fun i => ((cs i).spec impl.less (SMap.after impl.less h)).1) (fun i hi => by
    cases e : ((interleaveSG (fun i => (cs i).thread impl sl.nodes.length) sl schedule).1 i).ended with
    | none => exact absurd e (he i hi)
    | some o => rw [res i o e])
  obtain ⟨rs, sl', b1, b2⟩ := serial_spec (cs := cs) hl order hi
  rw [this] at b1
  injection b1 with b1
  injection b1 with _ b1
  rw [b1]
  exact b2.behaves hl

/-! ## Examples -/

/-- Keys 1, 5 and 9: one goroutine adds to the value of 5, one doubles that of 9, one looks for 1, one asks for the first key from 6; the others ask for the length. -/
def exShare : Nat → SGCall Int Int
  | 0 => .update 5 (· + 1)
  | 1 => .update 9 (· * 2)
  | 2 => .find 1
  | 3 => .lowerBound 6
  | _ => .len

example : SGApart (SLImpl.less exImpl) exShare := by
  intro i j hij k hw hk
  match i, j with
  | 0, 0 | 1, 1 => exact hij rfl
  | 0, 1 | 0, 2 | 1, 0 | 1, 2 => simp [exShare, SGCall.writesTo, SGCall.looksAt, SLImpl.less, exImpl, GoOrd.lt] at hw hk; omega
  | 0, 3 | 1, 3 => exact hk
  | 0, j + 4 | 1, j + 4 => exact hk
  | 2, _ | 3, _ => exact hw
  | i + 4, _ => exact hw

/-- A schedule that lets them take turns. -/
def exTakeTurns : List Nat := (List.range 20).flatMap (fun _ => [0, 1, 2, 3, 4])

example : (do let r ← SL.run exImpl newSkipList exPre
              let sl := r.1
              let e := interleaveSG (fun i => (exShare i).thread exImpl sl.nodes.length) sl exTakeTurns
              let l ← e.2.iterate >>= e.2.observeIter
              return (l, [0, 1, 2, 3, 4].map (fun i => (e.1 i).ended)) : Outcome _) =
    .ret ([(1, 10), (5, 51), (9, 180)], [some (.ret (.flag true)), some (.ret (.flag true)), some (.ret (.val (some 10))), some (.ret (.key (some 9))), some (.ret (.num 3))]) := by
  decide +kernel

/-- C180, a lost addition: two goroutines that add to the same value. One addition is lost if both read before one writes. One after the other they add two. -/
theorem C180_lost :
    (do let r ← SL.run exImpl newSkipList exPre
        let sl := r.1
        let ts : Nat → SGThread Int Int (SGRet Int Int) := fun _ => (SGCall.update 5 (· + 1)).thread exImpl sl.nodes.length
        let n := (ts 0).steps sl
        let e := interleaveSG ts sl (List.replicate (n - 1) 0 ++ List.replicate n 1 ++ [0])
        let e' := interleaveSG ts sl (List.replicate n 0 ++ List.replicate n 1)
        let l ← e.2.iterate >>= e.2.observeIter
        let l' ← e'.2.iterate >>= e'.2.observeIter
        return (l, l') : Outcome _) =
    .ret ([(1, 10), (5, 51), (9, 90)], [(1, 10), (5, 52), (9, 90)]) := by
  decide +kernel

end Stl4go
