import Verif.Proofs.SkipListNested
/-! # SkipList: which entries loops inside one another visit, and when they end -/
namespace Stl4go
variable {K V α β σ : Type} {less : Nat → K → K → Bool} {ok : Nat → SCOp K V → Bool}

/-- The loop `x` over map `i`. -/
def SNSpec.walk (s : SNSpec K V) (i x : Nat) : SWalk K V := ⟨s.maps i, (s.maps i).curs (2 * x + 1)⟩

/-- All maps are sorted and all iterators are in order. -/
def NOk (less : Nat → K → K → Bool) (s : SNSpec K V) : Prop := ∀ i, SOk (less i) (s.maps i)

theorem NOk.walk {s : SNSpec K V} (h : NOk less s) (i x : Nat) : WOk (less i) (s.walk i x) := ⟨h i, (h i).curs _⟩

theorem NOk.init : NOk less (SNSpec.init : SNSpec K V) := fun _ => SOk.init

theorem NOk.set {s : SNSpec K V} (h : NOk less s) (i : Nat) {x : SCSpec K V} (hx : SOk (less i) x) : NOk less (s.set i x) := by
  intro j
  by_cases hj : j = i
  · subst hj; rw [SNSpec.set_same]; exact hx
  · rw [SNSpec.set_other _ _ hj]; exact h j

/-- What client code inside `d` loops that only makes calls in `ok` does to the maps and to these loops. -/
structure SNRel (less : Nat → K → K → Bool) (d : Nat) (ok : Nat → SCOp K V → Bool) (s s' : SNSpec K V) : Prop where
  nok : NOk less s'
  walk : ∀ i, ∀ x < d, WRel (less i) (ok i) (s.walk i x) (s'.walk i x)
  len : (∀ i op, ok i op = true → op.isInsert = false) → ∀ i, (s'.maps i).map.length ≤ (s.maps i).map.length

theorem SNRel.refl {d : Nat} {s : SNSpec K V} (h : NOk less s) : SNRel less d ok s s :=
  ⟨h, fun i x _ => WRel.refl (h.walk i x), fun _ _ => Nat.le_refl _⟩

theorem SNRel.trans {d : Nat} {a b c : SNSpec K V} (h1 : SNRel less d ok a b) (h2 : SNRel less d ok b c) : SNRel less d ok a c :=
  ⟨h2.nok, fun i x hx => (h1.walk i x hx).trans (h2.walk i x hx), fun hi i => Nat.le_trans (h2.len hi i) (h1.len hi i)⟩

theorem SNRel.of_le {d e : Nat} {a b : SNSpec K V} (h : SNRel less d ok a b) (he : e ≤ d) : SNRel less e ok a b :=
  ⟨h.nok, fun i x hx => h.walk i x (by omega), h.len⟩

/-- A change of map `i` that is one for all loops over it. -/
theorem SNRel.set {d : Nat} {s : SNSpec K V} (h : NOk less s) (i : Nat) {y : SCSpec K V} (hy : SOk (less i) y)
    (hw : ∀ x < d, WRel (less i) (ok i) (s.walk i x) ⟨y, y.curs (2 * x + 1)⟩)
    (hlen : (∀ i op, ok i op = true → op.isInsert = false) → y.map.length ≤ (s.maps i).map.length) : SNRel less d ok s (s.set i y) := by
  refine ⟨h.set i hy, fun j x hx => ?_, fun hi j => ?_⟩
  · by_cases hj : j = i
    · subst hj; simp only [SNSpec.walk, SNSpec.set_same]; exact hw x hx
    · simp only [SNSpec.walk, SNSpec.set_other _ _ hj]; exact WRel.refl (h.walk j x)
  · by_cases hj : j = i
    · subst hj; rw [SNSpec.set_same]; exact hlen hi
    · rw [SNSpec.set_other _ _ hj]; exact Nat.le_refl _

theorem SCSpec.outer_cur (ls : K → K → Bool) (s : SCSpec K V) (op : SCOp K V) (x : Nat) :
    (s.step ls op.outer).2.curs (2 * x + 1) = (SWalk.op ls ⟨s, s.curs (2 * x + 1)⟩ op.outer).cur := by
  have hne : ∀ c, 2 * x + 1 ≠ 2 * c := fun c => by omega
  cases op with
  | map r o => rfl
  | write p v =>
    simp only [SCOp.outer, SCSpec.step, SWalk.op]
    cases s.ptrs p with
    | none => rfl
    | some d => cases d <;> rfl
  | next c => simp only [SCOp.outer, SCSpec.step, SWalk.op]; split <;> simp [SCSpec.put, hne]
  | _ => simp only [SCOp.outer, SCSpec.step, SWalk.op] <;> (try split) <;> simp [SCSpec.put, SCSpec.point, hne]

theorem SCSpec.step_len {ls : K → K → Bool} (hw : StrictWeak ls) {s : SCSpec K V} (hs : SMap.Sorted ls s.map) (op : SCOp K V) (h : op.isInsert = false) : (s.step ls op).2.map.length ≤ s.map.length := by
  by_cases hm : ∃ r o, op = .map r o
  · obtain ⟨r, o, rfl⟩ := hm
    cases o with
    | insert k v => cases h
    | remove k => exact List.length_filter_le _ _
    | clear => simp [SCSpec.step, SMap.step]
    | update k v =>
      obtain ⟨G, H, S, sp⟩ := SSplit.exists hw k s.map hs
      simp only [SCSpec.step, SMap.step]
      rcases sp.cases with rfl | ⟨e, rfl⟩
      · rw [SMap.find_split sp]; simp
      · rw [SMap.find_split sp, SMap.insert_hit hw sp, sp.eq]; simp
    | _ => exact Nat.le_refl _
  · have := congrArg List.length (s.still (less := ls) (op := op) (fun r o e => hm ⟨r, o, e⟩)).1
    simp only [List.length_map] at this
    omega

theorem SNRel.call (hw : ∀ i, StrictWeak (less i)) (hok : ∀ i op, ok i op.outer = ok i op) {d : Nat} {s : SNSpec K V} (h : NOk less s) {i : Nat} {op : SCOp K V}
    (hop : ok i op = true) : SNRel less d ok s (s.set i ((s.maps i).step (less i) op.outer).2) := by
  refine SNRel.set h i ((h i).step (hw i) op.outer).1 (fun x _ => ?_) (fun hi => SCSpec.step_len (hw i) (h i).sorted _ (hi i _ ((hok i op).trans hop)))
  rw [SCSpec.outer_cur]
  exact WRel.op (hw i) (h.walk i x) ((hok i op).trans hop)

theorem SNRel.put (hw : ∀ i, StrictWeak (less i)) {d : Nat} {s : SNSpec K V} (h : NOk less s) (i : Nat) {c : SCur K}
    (hc : CurOk (less i) (s.maps i).map (s.maps i).removed c) : SNRel less d ok s (s.set i ((s.maps i).put (2 * d + 1) c)) := by
  refine SNRel.set h i ((h i).put _ hc) (fun x hx => ?_) (fun _ => Nat.le_refl _)
  have e : ((s.maps i).put (2 * d + 1) c).curs (2 * x + 1) = (s.maps i).curs (2 * x + 1) := by
    have : ¬ (2 * x + 1 = 2 * d + 1) := by omega
    simp only [SCSpec.put, if_neg this]
  rw [e]
  exact WRel.vals (hw i) (h.walk i x) ((h i).put _ hc) rfl (fun _ => rfl)

theorem SNRel.point (hw : ∀ i, StrictWeak (less i)) {d : Nat} {s : SNSpec K V} (h : NOk less s) (i p : Nat) (q : Option (SPlace K)) :
    SNRel less d ok s (s.set i ((s.maps i).point p q)) := by
  have hs : SOk (less i) ((s.maps i).point p q) := ⟨(h i).sorted, (h i).curs⟩
  exact SNRel.set h i hs (fun x hx => WRel.vals (hw i) (h.walk i x) hs rfl (fun _ => rfl)) (fun _ => Nat.le_refl _)

/-- One round of a loop. -/
theorem NOk.round (hw : ∀ i, StrictWeak (less i)) {d i : Nat} {cb : σ → K → V → SNSpec K V → Res (SNSpec K V) (σ × Bool)}
    (hcb : ∀ t k v s, NOk less s → ∀ r s', cb t k v s = .ok r s' → SNRel less (d + 1) ok s s') (fuel : Nat) (t : σ) {s : SNSpec K V} (h : NOk less s) :
    ((s.walk i d).ahead = [] ∧ SNSpec.eachLoop less i (2 * d + 1) cb (fuel + 1) t s = .ok t s) ∨
    ∃ k v, (s.walk i d).ahead.head? = some k ∧ (s.walk i d).entry (less i) = some (k, v) ∧
      ((∃ s', SNSpec.eachLoop less i (2 * d + 1) cb (fuel + 1) t s = .panic s') ∨
       (SNSpec.eachLoop less i (2 * d + 1) cb (fuel + 1) t s = .diverge ∧ cb t k v s = .diverge) ∨
       (∃ t' s', cb t k v s = .ok (t', false) s' ∧ SNSpec.eachLoop less i (2 * d + 1) cb (fuel + 1) t s = .ok t' s') ∨
       (∃ t' s' c, cb t k v s = .ok (t', true) s' ∧
          SNSpec.eachLoop less i (2 * d + 1) cb (fuel + 1) t s = SNSpec.eachLoop less i (2 * d + 1) cb fuel t' (s'.set i ((s'.maps i).put (2 * d + 1) c)) ∧
          SNRel less (d + 1) ok s s' ∧ ((s'.maps i).curs (2 * d + 1)).next (less i) (s'.maps i).map = some c ∧ (s'.walk i d).ahead.head? = some k ∧
          WOk (less i) { s'.walk i d with cur := c } ∧ (∀ z ∈ SWalk.ahead { s'.walk i d with cur := c }, less i k z = true))) := by
  have hh := (h.walk i d).head (hw i)
  have he : (s.walk i d).entry (less i) = ((s.maps i).curs (2 * d + 1)).place.bind ((s.maps i).entry (less i)) := rfl
  cases hx : (s.walk i d).entry (less i) with
  | none =>
    rw [hx] at hh
    rw [hx] at he
    left
    refine ⟨?_, by simp only [SNSpec.eachLoop, ← he]⟩
    cases ha : (s.walk i d).ahead with
    | nil => rfl
    | cons => rw [ha] at hh; cases hh
  | some e =>
    rw [hx] at hh
    rw [hx] at he
    have hk : (s.walk i d).ahead.head? = some e.1 := hh.symm
    refine .inr ⟨e.1, e.2, hk, rfl, ?_⟩
    have hp := hcb t e.1 e.2 s h
    simp only [SNSpec.eachLoop, ← he]
    cases hs : cb t e.1 e.2 s with
    | panic y => exact .inl ⟨y, rfl⟩
    | diverge => exact .inr (.inl ⟨rfl, rfl⟩)
    | ok r y =>
      have hp := hp r y hs
      obtain ⟨t', b⟩ := r
      cases b with
      | false => exact .inr (.inr (.inl ⟨t', y, rfl, rfl⟩))
      | true =>
        have hr := hp.walk i d (by omega)
        obtain ⟨ext, he⟩ := hr.more
        have hy : (y.walk i d).ahead.head? = some e.1 := by
          rw [he]
          cases ha : (s.walk i d).ahead with
          | nil => rw [ha] at hk; cases hk
          | cons a l => rw [ha] at hk; exact hk
        have hne' : (y.walk i d).ahead ≠ [] := by intro h0; rw [h0] at hy; cases hy
        obtain ⟨c, c1, c2, k, c3, c4⟩ := hr.wok.next hne'
        rw [hy] at c3
        cases c3
        have c1' : ((y.maps i).curs (2 * d + 1)).next (less i) (y.maps i).map = some c := c1
        exact .inr (.inr (.inr ⟨t', y, c, rfl, by simp only [c1'], hp, c1', hy, c2, c4⟩))

/-- Nothing that the client did keeps a loop from ending. -/
def MayHang (ok : Nat → SCOp K V → Bool) (hangs : Prop) (fuel : Nat) (s : SNSpec K V) : Prop :=
  hangs ∨ ¬ (∀ i op, ok i op = true → op.isInsert = false) ∨ ∃ i, fuel ≤ (s.maps i).map.length

theorem MayHang.back {hangs : Prop} {fuel d : Nat} {s s' : SNSpec K V} (h : SNRel less d ok s s') (h' : MayHang ok hangs fuel s') : MayHang ok hangs fuel s := by
  by_cases hi : ∀ i op, ok i op = true → op.isInsert = false
  · rcases h' with h' | h' | ⟨i, h'⟩
    · exact .inl h'
    · exact absurd hi h'
    · exact .inr (.inr ⟨i, Nat.le_trans h' (h.len hi i)⟩)
  · exact .inr (.inl hi)

/-- How client code inside `d` loops ends, and what it does to them. -/
def Behaves (less : Nat → K → K → Bool) (ok : Nat → SCOp K V → Bool) (hangs : Prop) (fuel d : Nat) (s : SNSpec K V) : Res (SNSpec K V) α → Prop
  | .ok _ s' => SNRel less d ok s s'
  | .panic _ => True
  | .diverge => MayHang ok hangs fuel s

theorem Behaves.after {hangs : Prop} {fuel d : Nat} {s s' : SNSpec K V} (h : SNRel less d ok s s') {r : Res (SNSpec K V) α} (hr : Behaves less ok hangs fuel d s' r) :
    Behaves less ok hangs fuel d s r := by
  cases r with
  | ok a y => exact h.trans hr
  | panic => trivial
  | diverge => exact hr.back h

theorem Behaves.andThen {hangs : Prop} {fuel d : Nat} {s : SNSpec K V} {r : Res (SNSpec K V) α} (hr : Behaves less ok hangs fuel d s r)
    {f : α → SNSpec K V → Res (SNSpec K V) β} (hf : ∀ a s', NOk less s' → Behaves less ok hangs fuel d s' (f a s')) :
    Behaves less ok hangs fuel d s (r.andThen f) := by
  cases r with
  | ok a y => exact (hf a y hr.nok).after hr
  | panic => trivial
  | diverge => exact hr

theorem eachLoop_behaves (hw : ∀ i, StrictWeak (less i)) {hangs : Prop} {F d i : Nat} {cb : σ → K → V → SNSpec K V → Res (SNSpec K V) (σ × Bool)}
    (hcb : ∀ t k v s, NOk less s → Behaves less ok hangs F (d + 1) s (cb t k v s)) (fuel : Nat) : ∀ (t : σ) {s : SNSpec K V}, NOk less s →
    (∀ r s', SNSpec.eachLoop less i (2 * d + 1) cb fuel t s = .ok r s' → SNRel less d ok s s') ∧
    (SCSpec.room (less i) (s.maps i).map ((s.maps i).curs (2 * d + 1)) < fuel → SNSpec.eachLoop less i (2 * d + 1) cb fuel t s = .diverge →
      MayHang ok hangs F s) := by
  have hcb' : ∀ t k v s, NOk less s → ∀ r s', cb t k v s = .ok r s' → SNRel less (d + 1) ok s s' := by
    intro t k v s h r s' e
    have := hcb t k v s h
    rw [e] at this
    exact this
  induction fuel with
  | zero => intro t s _; exact ⟨fun r s' e => (by cases e), fun h => by omega⟩
  | succ fuel ih =>
    intro t s h
    rcases h.round hw hcb' fuel t (i := i) with ⟨_, e⟩ | ⟨k, v, _, _, ⟨_, e⟩ | ⟨e, e2⟩ | ⟨t', z, e2, e⟩ | ⟨t', z, c, e2, e, hr, hn, _, hz, _⟩⟩
    · rw [e]; exact ⟨fun r s' e => (by cases e; exact SNRel.refl h), fun _ e => by cases e⟩
    · rw [e]; exact ⟨fun r s' e => (by cases e), fun _ e => by cases e⟩
    · have := hcb t k v s h
      rw [e2] at this
      rw [e]; exact ⟨fun r s' e => (by cases e), fun _ _ => this⟩
    · rw [e]; exact ⟨fun r s' e => (by cases e; exact (hcb' t k v s h _ _ e2).of_le (by omega)), fun _ e => by cases e⟩
    · rw [e]
      have hp : SNRel less d ok z (z.set i ((z.maps i).put (2 * d + 1) c)) := SNRel.put hw hr.nok i hz.cur
      have hr' := (hr.of_le (e := d) (by omega)).trans hp
      obtain ⟨i1, i2⟩ := ih t' hp.nok
      refine ⟨fun r s' e => hr'.trans (i1 r s' e), fun hf e => ?_⟩
      by_cases hins : ∀ i op, ok i op = true → op.isInsert = false
      · refine (i2 ?_ e).back hr'
        have h1 := (hr.walk i d (by omega)).room (hins i)
        have h2 := (hr.walk i d (by omega)).wok.cur.room_next (hw i) (hr.nok i).sorted hn
        simp only [SNSpec.set_same, SCSpec.put, if_true]
        simp only [SNSpec.walk] at h1 h2
        omega
      · exact .inr (.inl hins)

theorem CurOk.head {ls : K → K → Bool} (s : SCSpec K V) : CurOk ls s.map s.removed { start := s.map.head?.map (·.1) } := by
  refine CurOk.fresh (fun k hk => ?_) _
  cases hm : s.map with
  | nil => rw [hm] at hk; simp at hk
  | cons e m => rw [hm] at hk; simp at hk; subst hk; exact ⟨e.2, by simp⟩

theorem each_behaves (hw : ∀ i, StrictWeak (less i)) {hangs : Prop} {F d i : Nat} {cb : σ → K → V → SNSpec K V → Res (SNSpec K V) (σ × Bool)}
    (hcb : ∀ t k v s, NOk less s → Behaves less ok hangs F (d + 1) s (cb t k v s)) (t : σ) {s : SNSpec K V} (h : NOk less s) :
    Behaves less ok hangs F d s (s.each less i (2 * d + 1) cb F t) := by
  have hp : SNRel less d ok s (s.set i ((s.maps i).put (2 * d + 1) { start := (s.maps i).map.head?.map (·.1) })) := SNRel.put hw h i (CurOk.head _)
  obtain ⟨i1, i2⟩ := eachLoop_behaves hw (i := i) hcb F t hp.nok
  refine Behaves.after hp ?_
  unfold SNSpec.each
  revert i1 i2
  cases SNSpec.eachLoop less i (2 * d + 1) cb F t (s.set i ((s.maps i).put (2 * d + 1) { start := (s.maps i).map.head?.map (·.1) })) with
  | ok r s' => exact fun i1 _ => i1 r s' rfl
  | panic => exact fun _ _ => trivial
  | diverge =>
    intro _ i2
    by_cases hl : F ≤ (s.maps i).map.length
    · exact .inr (.inr ⟨i, by rw [SNSpec.set_same]; exact hl⟩)
    · refine i2 ?_ rfl
      rw [SNSpec.set_same]
      refine Nat.lt_of_le_of_lt (SCSpec.room_le ?_) (by show (s.maps i).map.length < F; omega)
      simp [SCSpec.put]

theorem SNProg.spec_behaves (hw : ∀ i, StrictWeak (less i)) (hok : ∀ i op, ok i op.outer = ok i op) {hangs : Prop} (F : Nat) {α : Type} (p : SNProg K V α) :
    p.Calls hangs (fun i op => ok i op = true) → ∀ (d : Nat) (s : SNSpec K V), NOk less s → Behaves less ok hangs F d s (p.spec less F d s) := by
  induction p with
  | ret a => intro _ d s h; exact SNRel.refl h
  | panic => intro _ d s h; trivial
  | hang => intro hp d s h; exact .inl hp
  | call i op k ih =>
    intro hp d s h
    have hr : SNRel less d ok s (s.set i ((s.maps i).step (less i) op.outer).2) := SNRel.call hw hok h hp.1
    have goal := fun o => (ih o (hp.2 o) d _ hr.nok).after hr
    simp only [SNProg.spec]
    cases ((s.maps i).step (less i) op.outer).1 with
    | key k' => exact goal _
    | of o => cases o <;> first | exact goal _ | trivial
  | each i cb t k ih1 ih2 =>
    intro hp d s h
    exact (each_behaves hw (fun t key v s h => ih1 t key v (hp.1 t key v) (d + 1) s h) t h).andThen (fun t s h => ih2 t (hp.2 t) d s h)
  | eachPtr p i cb t k ih1 ih2 =>
    intro hp d s h
    refine (each_behaves hw (fun t key v s h => ?_) t h).andThen (fun t s h => ih2 t (hp.2 t) d s h)
    have hr : SNRel less (d + 1) ok s (s.set i ((s.maps i).point p ((s.maps i).curs (2 * d + 1)).place)) := SNRel.point hw h i p _
    exact (ih1 t key (hp.1 t key) (d + 1) _ hr.nok).after hr

end Stl4go
