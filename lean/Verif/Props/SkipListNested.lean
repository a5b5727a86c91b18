import Verif.Proofs.SkipListNestedVisit
import Verif.Props.SkipListCallback
/-!
# Property C158: loops over the lists of `/repo/skiplist.go` inside one another

Client code is a program over any number of lists, each with its own compare function, iterators, pointers and `ForEach` methods (`SNProg`), whose
callbacks are such programs again.
-/
namespace Stl4go
variable {K V σ : Type} {impl : Nat → SLImpl K}

/-- The lists before the program starts. -/
def SNWorld.init : SNWorld K V := ⟨fun _ => SCWorld.init⟩

/-- Whatever the client does next with any list, it sees what the specification says. -/
def SNWorld.Shows (impl : Nat → SLImpl K) (w : SNWorld K V) (s : SNSpec K V) : Prop :=
  ∀ i ops, ((w.lists i).run (impl i) ops).1 = ((s.maps i).run (impl i).less (ops.map SCOp.outer)).1

/-- The program ended as the specification says, and whatever the client does next it sees what the specification says. -/
def EndsLikeN {α : Type} (impl : Nat → SLImpl K) : Res (SNWorld K V) α → Res (SNSpec K V) α → Prop
  | .ok a w, .ok b s => a = b ∧ w.Shows impl s
  | .panic w, .panic s => w.Shows impl s
  | .diverge, .diverge => True
  | _, _ => False

theorem NInv.init : NInv impl (SNWorld.init : SNWorld K V) (fun _ _ => none) SNSpec.init := by
  intro i
  have e : (SCWorld.init : SCWorld K V).hide (fun _ => none) = SCWorld.init := by
    simp only [SCWorld.hide, SCWorld.init]
    congr 1
    funext x
    split <;> rfl
  exact ⟨[], [], by simp only [SNWorld.init, SNSpec.init]; rw [e]; exact SCInv.init (impl i)⟩

theorem NInv.shows (hl : ∀ i, (impl i).Lawful) {w : SNWorld K V} {hid : Nat → Nat → Option Nat} {s : SNSpec K V} (h : NInv impl w hid s) : w.Shows impl s := by
  intro i ops
  induction ops generalizing w s with
  | nil => rfl
  | cons op ops ih =>
    obtain ⟨a, b⟩ := h.call hl i op
    have := ih b
    rw [SNWorld.set_same, SNSpec.set_same] at this
    simp only [SCWorld.run, SCSpec.run, List.map_cons, a, this]

/-- C158: whatever a program does with lists, iterators, pointers and loops inside one another, every list behaves as a sorted map and every loop as an
iterator over it that the program cannot name. -/
theorem C158_programs (hl : ∀ i, (impl i).Lawful) {α : Type} (p : SNProg K V α) (fuel : Nat) :
    EndsLikeN impl (p.exec impl fuel SNWorld.init) (p.spec (fun i => (impl i).less) fuel 0 SNSpec.init) := by
  have := SNProg.exec_settles hl fuel p 0 SNWorld.init _ SNSpec.init NInv.init
  revert this
  cases p.exec impl fuel SNWorld.init <;> cases p.spec (fun i => (impl i).less) fuel 0 SNSpec.init <;> intro this <;> try exact this.elim
  · exact ⟨this.1, by obtain ⟨_, _, _, h⟩ := this; exact h.shows hl⟩
  · obtain ⟨_, h⟩ := this; exact h.shows hl
  · trivial

/-- A world that a program reached, with what the specification says about it. -/
def SNReached (impl : Nat → SLImpl K) (w : SNWorld K V) (s : SNSpec K V) : Prop :=
  ∃ (α : Type) (p : SNProg K V α) (fuel : Nat) (a : α), p.exec impl fuel SNWorld.init = .ok a w ∧ p.spec (fun i => (impl i).less) fuel 0 SNSpec.init = .ok a s

theorem SNReached.ninv (hl : ∀ i, (impl i).Lawful) {w : SNWorld K V} {s : SNSpec K V} (h : SNReached impl w s) :
    (∃ hid, NInv impl w hid s) ∧ NOk (fun i => (impl i).less) s := by
  obtain ⟨α, p, fuel, a, h1, h2⟩ := h
  constructor
  · have := SNProg.exec_settles hl fuel p 0 SNWorld.init _ SNSpec.init NInv.init
    rw [h1, h2] at this
    obtain ⟨_, hid, _, h⟩ := this
    exact ⟨hid, h⟩
  · exact (SNProg.spec_rel (ok := fun _ _ => true) (fun i => (hl i).weak) (fun _ _ => rfl) (SNProg.calls_all (fun _ _ => rfl) p) NOk.init h2).nok

/-- A program that ends normally in a reached world does so in the specification. -/
theorem SNReached.run (hl : ∀ i, (impl i).Lawful) {w : SNWorld K V} {s : SNSpec K V} (h : SNReached impl w s) {α : Type} (p : SNProg K V α) (fuel : Nat) {a : α}
    {w' : SNWorld K V} (e : p.exec impl fuel w = .ok a w') : ∃ s', p.spec (fun i => (impl i).less) fuel 0 s = .ok a s' := by
  obtain ⟨⟨hid, hi⟩, _⟩ := h.ninv hl
  have := SNProg.exec_settles hl fuel p 0 w _ s hi
  rw [e] at this
  revert this
  cases p.spec (fun i => (impl i).less) fuel 0 s <;> intro this <;> try exact this.elim
  obtain ⟨rfl, _⟩ := this
  exact ⟨_, rfl⟩

theorem noting_notes {less : Nat → K → K → Bool} {F d : Nat} (cb : σ → K → V → SNProg K V (σ × Bool)) :
    Notes (fun t k v s => (SNProg.noting cb t k v).spec less F d s) := by
  intro t k v s r s' h
  simp only [SNProg.noting, SNProg.spec_bind] at h
  obtain ⟨a, z, _, h2⟩ := Res.andThen_ok h
  cases h2; rfl

/-- C158: whatever the callback of `ForEachIf` does with the list of the loop and with others, in whatever loops inside it: it is called with strictly
ascending keys. -/
theorem C158_ascending (hl : ∀ i, (impl i).Lawful) {w : SNWorld K V} {s : SNSpec K V} (hr : SNReached impl w s) (i : Nat)
    (cb : σ → K → V → SNProg K V (σ × Bool)) (fuel : Nat) (t t' : σ) (ks : List K) (w' : SNWorld K V)
    (h : (SNProg.each i (SNProg.noting cb) (t, []) .ret).exec impl fuel w = .ok (t', ks) w') : ks.Pairwise (fun a b => (impl i).less a b = true) := by
  obtain ⟨s', e⟩ := hr.run hl _ fuel h
  obtain ⟨r, z, e1, e2⟩ := Res.andThen_ok e
  cases e2
  have hw := fun i => (hl i).weak
  have hn := (hr.ninv hl).2
  have hp := SNRel.put (ok := fun _ _ => true) (d := 0) hw hn i (CurOk.head (ls := (impl i).less) (s.maps i))
  exact (eachLoop_ascending (ok := fun _ _ => true) hw (fun t k v s h r s' e => SNProg.spec_rel hw (fun _ _ => rfl) (SNProg.calls_all (fun _ _ => rfl) _) h e)
    (noting_notes cb) fuel t [] hp.nok List.Pairwise.nil (by simp) _ _ _ e1).1

theorem notingPtr_notes {less : Nat → K → K → Bool} {F d : Nat} (cb : σ → K → SNProg K V (σ × Bool)) (g : SNSpec K V → SNSpec K V) :
    Notes (fun t k (_ : V) s => (SNProg.notingPtr cb t k).spec less F d (g s)) := by
  intro t k v s r s' h
  simp only [SNProg.notingPtr, SNProg.spec_bind] at h
  obtain ⟨a, z, _, h2⟩ := Res.andThen_ok h
  cases h2; rfl

/-- C158: the same for `ForEachMutableIf`. -/
theorem C158_ascending_mutable (hl : ∀ i, (impl i).Lawful) {w : SNWorld K V} {s : SNSpec K V} (hr : SNReached impl w s) (p i : Nat)
    (cb : σ → K → SNProg K V (σ × Bool)) (fuel : Nat) (t t' : σ) (ks : List K) (w' : SNWorld K V)
    (h : (SNProg.eachPtr p i (SNProg.notingPtr cb) (t, []) .ret).exec impl fuel w = .ok (t', ks) w') : ks.Pairwise (fun a b => (impl i).less a b = true) := by
  obtain ⟨s', e⟩ := hr.run hl _ fuel h
  obtain ⟨r, z, e1, e2⟩ := Res.andThen_ok e
  cases e2
  have hw := fun i => (hl i).weak
  have hn := (hr.ninv hl).2
  have hp := SNRel.put (ok := fun _ _ => true) (d := 0) hw hn i (CurOk.head (ls := (impl i).less) (s.maps i))
  exact (eachLoop_ascending (ok := fun _ _ => true) (d := 0)
    (cb := fun t k _ s => (SNProg.notingPtr cb t k).spec (fun i => (impl i).less) fuel (0 + 1) (s.set i ((s.maps i).point p ((s.maps i).curs (2 * 0 + 1)).place))) hw
    (fun t k v s h r s' e => (SNRel.point hw h i p _).trans
      (SNProg.spec_rel hw (fun _ _ => rfl) (SNProg.calls_all (fun _ _ => rfl) _) (SNRel.point (ok := fun _ _ => true) (d := 0) hw h i p _).nok e))
    (notingPtr_notes cb (fun s => s.set i ((s.maps i).point p ((s.maps i).curs (2 * 0 + 1)).place))) fuel t [] hp.nok List.Pairwise.nil (by simp) _ _ _ e1).1

theorem SCOp.removesKey_outer (ls : K → K → Bool) (q : K) (op : SCOp K V) : op.outer.removesKey ls q = op.removesKey ls q := by
  cases op <;> rfl

/-- C158: an entry that is in the list when the loop starts is visited, unless something in the callbacks removes it or clears the list. -/
theorem C158_visited (hl : ∀ i, (impl i).Lawful) {w : SNWorld K V} {s : SNSpec K V} (hr : SNReached impl w s) (i : Nat)
    (cb : σ → K → V → SNProg K V σ) (q : K) (hcb : ∀ t k v, (cb t k v).Calls True (fun j op => j = i → op.removesKey (impl i).less q = false))
    (hq : (((w.lists i).step (impl i) (.map 0 (.has q))).1 = .of (.flag true))) (fuel : Nat) (t t' : σ) (ks : List K) (w' : SNWorld K V)
    (h : (SNProg.each i (SNProg.noting (SNProg.goOn cb)) (t, []) .ret).exec impl fuel w = .ok (t', ks) w') : ∃ k ∈ ks, sameKey (impl i).less q k = true := by
  obtain ⟨s', e⟩ := hr.run hl _ fuel h
  obtain ⟨⟨hid, hi⟩, hn⟩ := hr.ninv hl
  obtain ⟨r, z, e1, e2⟩ := Res.andThen_ok e
  cases e2
  have hw := fun i => (hl i).weak
  rw [(hi.call hl i (.map 0 (.has q))).1] at hq
  have hq' : (SMap.find (impl i).less q (s.maps i).map).isSome = true := by simpa [SCOp.outer, SCSpec.step, SMap.step] using hq
  have hb := SOk.before_new (hw i) (hn i) (op := .iterate 1) (c := 1) (q := q) (by simp [SCOp.startsBefore]) hq'
  let ok : Nat → SCOp K V → Bool := fun j op => decide (j = i → op.removesKey (impl i).less q = false)
  have hok : ∀ j op, ok j op.outer = ok j op := fun j op => by simp only [ok, SCOp.removesKey_outer]
  have hcb' : ∀ (t : σ × List K) k v, (SNProg.noting (SNProg.goOn cb) t k v).Calls True (fun j op => ok j op = true) := by
    intro t k v
    have hP : (fun (j : Nat) (op : SCOp K V) => ok j op = true) = (fun j op => j = i → op.removesKey (impl i).less q = false) := by
      funext j op; simp only [ok, decide_eq_true_eq]
    rw [hP]
    exact SNProg.calls_bind _ (SNProg.calls_bind _ (hcb t.1 k v) (fun _ => trivial)) (fun _ => trivial)
  have hp := SNRel.put (ok := ok) (d := 0) hw hn i (CurOk.head (ls := (impl i).less) (s.maps i))
  refine eachLoop_visited (ok := ok) hw (fun t k v s h r s' e => SNProg.spec_rel hw hok (hcb' t k v) h e) (noting_notes _)
    (fun t k v s r s' e => ?_) (fun op ho => by simpa [ok] using ho) fuel t [] hp.nok List.Pairwise.nil (by simp) (by rw [SNSpec.set_same]; exact hq') ?_ _ _ _ e1
  · simp only [SNProg.noting, SNProg.goOn, SNProg.spec_bind] at e
    obtain ⟨a, z, e1, e2⟩ := Res.andThen_ok e
    obtain ⟨a', z', _, e4⟩ := Res.andThen_ok e1
    cases e4; cases e2; rfl
  · rw [SNSpec.set_same]
    simpa [SCSpec.step, SCSpec.put] using hb

/-- C158: a program with loops in any nesting ends if it inserts nothing and does not hang by itself. -/
theorem C158_ends (hl : ∀ i, (impl i).Lawful) {w : SNWorld K V} {s : SNSpec K V} (hr : SNReached impl w s) {α : Type} (p : SNProg K V α)
    (hp : p.Calls False (fun _ op => op.isInsert = false)) (fuel : Nat) (hf : ∀ i, (s.maps i).map.length < fuel) : p.exec impl fuel w ≠ .diverge := by
  intro e
  obtain ⟨⟨hid, hi⟩, hn⟩ := hr.ninv hl
  have := SNProg.exec_settles hl fuel p 0 w _ s hi
  rw [e] at this
  have hok : ∀ (j : Nat) (op : SCOp K V), (!op.outer.isInsert) = !op.isInsert := fun j op => by
    cases op with
    | map r o => cases o <;> rfl
    | _ => rfl
  have hb := SNProg.spec_behaves (ok := fun _ op => !op.isInsert) (fun i => (hl i).weak) hok fuel p (by simpa using hp) 0 s hn
  revert this hb
  cases p.spec (fun i => (impl i).less) fuel 0 s <;> intro this hb <;> try exact this.elim
  rcases hb with hb | hb | ⟨i, hb⟩
  · exact hb
  · exact hb (fun _ op h => by simpa using h)
  · exact absurd (hf i) (by omega)

/-- C158: a callback may do what it likes with all other lists, and loop over all lists: as long as it only reads the list of its loop, `ForEachIf` visits
the entries that the list has, in order, up to the first at which the callback says stop, panics or does not return. -/
theorem C158_visits (hl : ∀ i, (impl i).Lawful) {w : SNWorld K V} {s : SNSpec K V} (hr : SNReached impl w s) (i : Nat) (cb : σ → K → V → SNProg K V (σ × Bool))
    (hcb : ∀ t k v, (cb t k v).Calls True (fun j op => j = i → op.Reading)) (t : σ) (fuel : Nat) (hf : (s.maps i).map.length < fuel) :
    (SNProg.each i cb t .ret).exec impl fuel w = visitEntries (fun t k v => (cb t k v).exec impl fuel) (s.maps i).map t w := by
  obtain ⟨⟨hid, hi⟩, hn⟩ := hr.ninv hl
  have := forEachIfN_visits hl fuel i cb hcb t hi (hn i).sorted hf
  simp only [SNProg.exec, GoM.bind_def]
  rw [this]
  cases visitEntries (fun t k v => (cb t k v).exec impl fuel) (s.maps i).map t w <;> rfl

/-- The pairs of an entry of list `i` and one of list `j`. -/
def SNProg.pairs (i j : Nat) : SNProg K V (List ((K × V) × (K × V))) :=
  .each i (fun t k v => .each j (fun t k' v' => .ret (t ++ [((k, v), (k', v'))], true)) t (fun t => .ret (t, true))) [] .ret

/-- C158: a loop over list `j` inside a loop over list `i`, which may be the same list, gives all pairs in order, and nothing changes. -/
theorem C158_pairs (hl : ∀ i, (impl i).Lawful) {w : SNWorld K V} {s : SNSpec K V} (hr : SNReached impl w s) (i j : Nat) (fuel : Nat)
    (hi : (s.maps i).map.length < fuel) (hj : (s.maps j).map.length < fuel) :
    (SNProg.pairs i j).exec impl fuel w = .ok ((s.maps i).map.flatMap (fun a => (s.maps j).map.map (fun b => (a, b)))) w := by
  unfold SNProg.pairs
  rw [C158_visits hl hr i (fun (t : List ((K × V) × (K × V))) k v => .each j (fun (t : List ((K × V) × (K × V))) k' v' => .ret (t ++ [((k, v), (k', v'))], true)) t (fun t => .ret (t, true)))
    (fun t k v => ⟨fun _ _ _ => trivial, fun _ => trivial⟩) [] fuel hi]
  rw [visitEntries_pure _ (fun t a => t ++ (s.maps j).map.map (fun b => (a, b))) w]
  · congr 1
    have : ∀ (es : List (K × V)) (t : List ((K × V) × (K × V))), es.foldl (fun t a => t ++ (s.maps j).map.map (fun b => (a, b))) t =
        t ++ es.flatMap (fun a => (s.maps j).map.map (fun b => (a, b))) := by
      intro es
      induction es with
      | nil => simp
      | cons v es ih => intro t; simp [ih]
    simpa using this (s.maps i).map []
  · intro t a _
    obtain ⟨⟨hid, h⟩, hn⟩ := hr.ninv hl
    have := forEachIfN_visits hl fuel j (fun (t : List ((K × V) × (K × V))) k' v' => .ret (t ++ [((a.1, a.2), (k', v'))], true)) (fun _ _ _ => by simp only [SNProg.Calls]) t h (hn j).sorted hj
    simp only [SNProg.exec, GoM.bind_def] at this ⊢
    rw [this, visitEntries_pure (fun (t : List ((K × V) × (K × V))) k' v' => (pure (t ++ [((a.1, a.2), (k', v'))], true) : GoM (SNWorld K V) _)) (fun t b => t ++ [(a, b)]) w _ (fun t v _ => rfl)]
    have : ∀ (es : List (K × V)) (t : List ((K × V) × (K × V))), es.foldl (fun t b => t ++ [(a, b)]) t = t ++ es.map (fun b => (a, b)) := by
      intro es
      induction es with
      | nil => simp
      | cons v es ih => intro t; simp [ih]
    simp [this]

/-- Insert all entries of list `i` into list `j`. -/
def SNProg.transfer (rnd : K → Nat) (i j : Nat) : SNProg K V Unit :=
  .each i (fun _ k v => .call j (.map (rnd k) (.insert k v)) (fun _ => .ret ((), true))) () .ret

/-- C158: inserting the entries of list `i` into another list, which may have another order, in the callback: the other list has them then, and all
other lists are as before. -/
theorem C158_transfer (hl : ∀ i, (impl i).Lawful) {w : SNWorld K V} {s : SNSpec K V} (hr : SNReached impl w s) (rnd : K → Nat) (i j : Nat) (hij : j ≠ i)
    (fuel : Nat) (hf : (s.maps i).map.length < fuel) :
    ∃ w', (SNProg.transfer rnd i j).exec impl fuel w = .ok () w' ∧
      ((w'.lists j).step (impl j) (.map 0 .iterate)).1 =
        .of (.entries ((s.maps i).map.foldl (fun m e => SMap.insert (impl j).less e.1 e.2 m) (s.maps j).map)) ∧
      ∀ x, x ≠ j → w'.lists x = w.lists x := by
  unfold SNProg.transfer
  rw [C158_visits hl hr i (fun (_ : Unit) k v => .call j (.map (rnd k) (.insert k v)) (fun _ => .ret ((), true)))
    (fun t k v => ⟨fun h => (hij h).elim, fun _ => trivial⟩) () fuel hf]
  obtain ⟨⟨hid, h⟩, _⟩ := hr.ninv hl
  have key : ∀ (es : List (K × V)) (w : SNWorld K V) (s : SNSpec K V), NInv impl w hid s → ∃ w' s',
      visitEntries (fun (_ : Unit) k v => (SNProg.call j (.map (rnd k) (.insert k v)) (fun _ => .ret ((), true)) : SNProg K V (Unit × Bool)).exec impl fuel) es () w = .ok () w' ∧
      NInv impl w' hid s' ∧ (s'.maps j).map = es.foldl (fun m e => SMap.insert (impl j).less e.1 e.2 m) (s.maps j).map ∧ ∀ x, x ≠ j → w'.lists x = w.lists x := by
    intro es
    induction es with
    | nil => intro w s h; exact ⟨w, s, rfl, h, rfl, fun _ _ => rfl⟩
    | cons e es ih =>
      intro w s h
      obtain ⟨a, b⟩ := h.call hl j (.map (rnd e.1) (.insert e.1 e.2))
      obtain ⟨w', s', c1, c2, c3, c4⟩ := ih _ _ b
      refine ⟨w', s', ?_, c2, ?_, fun x hx => ?_⟩
      · rw [← c1]
        simp only [visitEntries, GoM.bind_def, SNProg.exec, SNWorld.call]
        generalize (w.lists j).step (impl j) (.map (rnd e.1) (.insert e.1 e.2)) = r at a
        obtain ⟨o, w1⟩ := r
        simp only [SCOp.outer, SCSpec.step, SMap.step] at a
        subst a
        rfl
      · rw [c3, SNSpec.set_same]; rfl
      · rw [c4 x hx, SNWorld.set_other _ _ hx]
  obtain ⟨w', s', c1, c2, c3, c4⟩ := key (s.maps i).map w s h
  refine ⟨w', c1, ?_, c4⟩
  rw [← c3, (c2.call hl j (.map 0 .iterate)).1]
  rfl

/-- C158: `ForEach` and `ForEachMutable` are `ForEachIf` and `ForEachMutableIf` with a callback that always goes on. -/
theorem C158_forEach (fuel p i : Nat) (cb : σ → K → V → GoM (SNWorld K V) σ) (cb' : σ → K → GoM (SNWorld K V) σ) (t : σ) :
    SL.forEachN fuel i cb t = SL.forEachIfN fuel i (fun t k v => do let t ← cb t k v; return (t, true)) t ∧
    SL.forEachMutableN fuel p i cb' t = SL.forEachMutableIfN fuel p i (fun t k => do let t ← cb' t k; return (t, true)) t := by
  constructor
  · simp only [SL.forEachN, SL.forEachIfN, forEachLoopN_eq]
  · simp only [SL.forEachMutableN, SL.forEachMutableIfN, forEachMutableLoopN_eq]

/-! ## Concrete cases -/

/-- List 1 has the opposite order. -/
def exImplN : Nat → SLImpl Int
  | 1 => .func (fun a b => b - a)
  | _ => exImpl

theorem exImplN_lawful (i : Nat) : (exImplN i).Lawful := by
  match i with
  | 0 => exact exImpl_lawful
  | 1 =>
    show LawfulCmp (fun a b : Int => b - a)
    refine ⟨⟨fun a => by simp, fun a b c h1 h2 => ?_, fun a b c h1 h2 h3 h4 => ?_⟩, fun a b => ?_⟩
    · simp only [decide_eq_true_eq] at *; omega
    · simp only [decide_eq_false_iff_not] at *; omega
    · simp only [Equiv, decide_eq_false_iff_not]; omega
  | n + 2 => exact exImpl_lawful

def nestSeenN {α : Type} (p : SNProg Int Int α) : Option (α ⊕ Bool × List (SCObs Int Int)) :=
  match p.exec exImplN 20 SNWorld.init with
  | .ok a _ => some (.inl a)
  | .panic w => some (.inr (true, [((w.lists 0).step (exImplN 0) (.map 0 .iterate)).1, ((w.lists 1).step (exImplN 1) (.map 0 .iterate)).1]))
  | .diverge => some (.inr (false, []))

def nestMakeN {α : Type} (p : SNProg Int Int α) : SNProg Int Int α :=
  .call 0 (.map (2 ^ 37) (.insert 3 30)) fun _ => .call 0 (.map 0 (.insert 1 10)) fun _ => .call 0 (.map (2 ^ 38) (.insert 5 50)) fun _ => p

/-- All pairs of one list. -/
example : (nestSeenN (nestMakeN (SNProg.pairs 0 0))).map (fun r => match r with | .inl l => l.map (fun x => (x.1.1, x.2.1)) | _ => []) =
    some [(1, 1), (1, 3), (1, 5), (3, 1), (3, 3), (3, 5), (5, 1), (5, 3), (5, 5)] := by decide +kernel

/-- Into the list with the other order. -/
example : nestSeenN (nestMakeN ((SNProg.transfer (fun _ => 2 ^ 39) 0 1).bind (fun _ => .call 1 (.map 0 .iterate) .ret))) =
    some (.inl (.of (.entries [(5, 50), (3, 30), (1, 10)]))) := by decide +kernel

/-- A loop inside a loop over the same list that removes the entry of the outer loop and inserts others: the outer loop goes on from the removed entry
to the entry that followed it when it was removed, and does not visit what was inserted after that. -/
example : nestSeenN (nestMakeN (.each 0 (fun (t : List Int) k _ => .each 0 (fun (t : List Int) k' _ => if k' = k then .call 0 (.map 0 (.remove k)) (fun _ => .ret (t, false)) else .ret (t, true)) (t ++ [k])
    (fun t => .call 0 (.map 0 (.insert (k + 1) 0)) (fun _ => .ret (t, decide (t.length < 4))))) [] .ret)) = some (.inl [1, 3, 5]) := by decide +kernel

/-- Pointers of an outer loop that an inner loop writes through: the sums of all values. -/
example : nestSeenN (nestMakeN (.eachPtr 0 0 (fun (t : Unit) _ => .each 0 (fun (t : Unit) _ v => .call 0 (.read 0) (fun o => match o with
      | .of (.val (some a)) => .call 0 (.write 0 (a + v)) (fun _ => .ret (t, true))
      | _ => .panic)) t (fun t => .ret (t, true))) () (fun _ => .call 0 (.map 0 .iterate) .ret))) =
    some (.inl (.of (.entries [(1, 100), (3, 310), (5, 920)]))) := by decide +kernel

end Stl4go
