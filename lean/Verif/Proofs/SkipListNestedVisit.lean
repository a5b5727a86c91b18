import Verif.Proofs.SkipListNestedWalk
/-! # SkipList: the keys that a loop visits, whatever its callback does -/
namespace Stl4go
variable {K V α β σ : Type} {less : Nat → K → K → Bool} {ok : Nat → SCOp K V → Bool}

theorem SNProg.spec_bind (F : Nat) {α : Type} (p : SNProg K V α) (f : α → SNProg K V β) : ∀ (d : Nat) (s : SNSpec K V),
    (p.bind f).spec less F d s = (p.spec less F d s).andThen (fun a s => (f a).spec less F d s) := by
  induction p with
  | ret a => intro d s; rfl
  | panic => intro d s; rfl
  | hang => intro d s; rfl
  | call i op k ih =>
    intro d s
    simp only [SNProg.bind, SNProg.spec]
    cases ((s.maps i).step (less i) op.outer).1 with
    | key k' => exact ih _ f d _
    | of o => cases o <;> first | exact ih _ f d _ | rfl
  | each i cb t k ih1 ih2 =>
    intro d s
    simp only [SNProg.bind, SNProg.spec]
    generalize s.each less i (2 * d + 1) _ F t = r
    cases r with
    | ok a y => exact ih2 a f d y
    | panic => rfl
    | diverge => rfl
  | eachPtr p i cb t k ih1 ih2 =>
    intro d s
    simp only [SNProg.bind, SNProg.spec]
    generalize s.each less i (2 * d + 1) _ F t = r
    cases r with
    | ok a y => exact ih2 a f d y
    | panic => rfl
    | diverge => rfl

theorem SNProg.calls_bind {hangs : Prop} {P : Nat → SCOp K V → Prop} {α : Type} (p : SNProg K V α) {f : α → SNProg K V β} (hp : p.Calls hangs P)
    (hf : ∀ a, (f a).Calls hangs P) : (p.bind f).Calls hangs P := by
  induction p with
  | ret a => exact hf a
  | panic => trivial
  | hang => exact hp
  | call i op k ih => exact ⟨hp.1, fun o => ih o (hp.2 o) hf⟩
  | each i cb t k ih1 ih2 => exact ⟨hp.1, fun t => ih2 t (hp.2 t) hf⟩
  | eachPtr p i cb t k ih1 ih2 => exact ⟨hp.1, fun t => ih2 t (hp.2 t) hf⟩

theorem SNProg.calls_all {P : Nat → SCOp K V → Prop} (hP : ∀ i op, P i op) {α : Type} (p : SNProg K V α) : p.Calls True P := by
  induction p with
  | ret a => trivial
  | panic => trivial
  | hang => trivial
  | call i op k ih => exact ⟨hP i op, ih⟩
  | each i cb t k ih1 ih2 => exact ⟨ih1, ih2⟩
  | eachPtr p i cb t k ih1 ih2 => exact ⟨ih1, ih2⟩

/-- What returns normally has the effects that `spec_behaves` says. -/
theorem SNProg.spec_rel (hw : ∀ i, StrictWeak (less i)) (hok : ∀ i op, ok i op.outer = ok i op) {F d : Nat} {p : SNProg K V α}
    (hp : p.Calls True (fun i op => ok i op = true)) {s s' : SNSpec K V} (h : NOk less s) {a : α} (e : p.spec less F d s = .ok a s') : SNRel less d ok s s' := by
  have := SNProg.spec_behaves hw hok F p hp d s h
  rw [e] at this
  exact this

theorem Res.andThen_ok {S : Type} {r : Res S α} {f : α → S → Res S β} {b : β} {s' : S} (h : r.andThen f = .ok b s') : ∃ a s, r = .ok a s ∧ f a s = .ok b s' := by
  cases r with
  | ok a s => exact ⟨a, s, rfl, h⟩
  | panic => cases h
  | diverge => cases h

/-- The callback notes the keys. -/
def Notes (cb : σ × List K → K → V → SNSpec K V → Res (SNSpec K V) ((σ × List K) × Bool)) : Prop :=
  ∀ t k v s r s', cb t k v s = .ok r s' → r.1.2 = t.2 ++ [k]

theorem eachLoop_ascending (hw : ∀ i, StrictWeak (less i)) {d i : Nat} {cb : σ × List K → K → V → SNSpec K V → Res (SNSpec K V) ((σ × List K) × Bool)}
    (hcb : ∀ t k v s, NOk less s → ∀ r s', cb t k v s = .ok r s' → SNRel less (d + 1) ok s s') (hn : Notes cb) (fuel : Nat) :
    ∀ (t : σ) (ks : List K) {s : SNSpec K V}, NOk less s → ks.Pairwise (fun a b => less i a b = true) → (∀ a ∈ ks, ∀ b ∈ (s.walk i d).ahead, less i a b = true) →
    ∀ t' ks' s', SNSpec.eachLoop less i (2 * d + 1) cb fuel (t, ks) s = .ok (t', ks') s' → ks'.Pairwise (fun a b => less i a b = true) ∧ (∀ k ∈ ks, k ∈ ks') := by
  induction fuel with
  | zero => intro t ks s _ _ _ t' ks' s' h; cases h
  | succ fuel ih =>
    intro t ks s h hp hlt t' ks' s' hc
    have add : ∀ k, (s.walk i d).ahead.head? = some k → (ks ++ [k]).Pairwise (fun a b => less i a b = true) := by
      intro k hk
      rw [List.pairwise_append]
      refine ⟨hp, by simp, fun a ha b hb => ?_⟩
      simp only [List.mem_singleton] at hb
      subst hb
      exact hlt a ha _ (List.mem_of_mem_head? (by rw [hk]; rfl))
    rcases h.round hw hcb fuel (t, ks) (i := i) with ⟨_, e⟩ | ⟨k, v, hk, _, ⟨_, e⟩ | ⟨e, _⟩ | ⟨r, z, e0, e⟩ | ⟨r, z, c, e0, e, hr, _, _, hz, hgt⟩⟩
    · rw [e] at hc; cases hc; exact ⟨hp, fun _ h => h⟩
    · rw [e] at hc; cases hc
    · rw [e] at hc; cases hc
    · rw [e] at hc; cases hc
      have e1 : ks' = ks ++ [k] := hn _ _ _ _ _ _ e0
      rw [e1]; exact ⟨add k hk, fun a ha => List.mem_append_left _ ha⟩
    · rw [e] at hc
      have e1 := hn _ _ _ _ _ _ e0
      obtain ⟨r1, r2⟩ := r
      simp only at e1
      subst e1
      have hp' : SNRel less d ok z (z.set i ((z.maps i).put (2 * d + 1) c)) := SNRel.put hw hr.nok i hz.cur
      have hah : ((z.set i ((z.maps i).put (2 * d + 1) c)).walk i d).ahead = SWalk.ahead { z.walk i d with cur := c } := by
        simp [SWalk.ahead, SNSpec.walk, SNSpec.set_same, SCSpec.put]
      obtain ⟨j1, j2⟩ := ih r1 (ks ++ [k]) hp'.nok (add k hk) (fun a ha b hb => by
        rw [hah] at hb
        have hkb := hgt b hb
        rcases List.mem_append.1 ha with ha | ha
        · exact (hw i).trans _ _ _ (hlt a ha k (List.mem_of_mem_head? (by rw [hk]; rfl))) hkb
        · simp only [List.mem_singleton] at ha; subst ha; exact hkb) t' ks' s' hc
      exact ⟨j1, fun a ha => j2 a (List.mem_append_left _ ha)⟩

theorem eachLoop_visited (hw : ∀ i, StrictWeak (less i)) {d i : Nat} {cb : σ × List K → K → V → SNSpec K V → Res (SNSpec K V) ((σ × List K) × Bool)}
    (hcb : ∀ t k v s, NOk less s → ∀ r s', cb t k v s = .ok r s' → SNRel less (d + 1) ok s s') (hn : Notes cb)
    (hgo : ∀ t k v s r s', cb t k v s = .ok r s' → r.2 = true) {q : K} (hq : ∀ op, ok i op = true → op.removesKey (less i) q = false) (fuel : Nat) :
    ∀ (t : σ) (ks : List K) {s : SNSpec K V}, NOk less s → ks.Pairwise (fun a b => less i a b = true) → (∀ a ∈ ks, ∀ b ∈ (s.walk i d).ahead, less i a b = true) →
    (SMap.find (less i) q (s.maps i).map).isSome = true → ((s.maps i).curs (2 * d + 1)).Before (less i) q →
    ∀ t' ks' s', SNSpec.eachLoop less i (2 * d + 1) cb fuel (t, ks) s = .ok (t', ks') s' → ∃ k ∈ ks', sameKey (less i) q k = true := by
  induction fuel with
  | zero => intro t ks s _ _ _ _ _ t' ks' s' h; cases h
  | succ fuel ih =>
    intro t ks s h hp hlt hm hb t' ks' s' hc
    have add : ∀ k, (s.walk i d).ahead.head? = some k → (ks ++ [k]).Pairwise (fun a b => less i a b = true) := by
      intro k hk
      rw [List.pairwise_append]
      refine ⟨hp, by simp, fun a ha b hb => ?_⟩
      simp only [List.mem_singleton] at hb
      subst hb
      exact hlt a ha _ (List.mem_of_mem_head? (by rw [hk]; rfl))
    rcases h.round hw hcb fuel (t, ks) (i := i) with ⟨e0, e⟩ | ⟨k, v, hk, _, ⟨_, e⟩ | ⟨e, _⟩ | ⟨r, z, e0, e⟩ | ⟨r, z, c, e0, e, hr, hnx, hkz, hz, hgt⟩⟩
    · obtain ⟨k, hk, _⟩ := (h.walk i d).cur.before_head (hw i) hb
      simp only [SWalk.ahead] at e0
      rw [e0] at hk; cases hk
    · rw [e] at hc; cases hc
    · rw [e] at hc; cases hc
    · cases hgo _ _ _ _ _ _ e0
    · rw [e] at hc
      have e1 := hn _ _ _ _ _ _ e0
      obtain ⟨r1, r2⟩ := r
      simp only at e1
      subst e1
      have hp' : SNRel less d ok z (z.set i ((z.maps i).put (2 * d + 1) c)) := SNRel.put hw hr.nok i hz.cur
      have hah : ((z.set i ((z.maps i).put (2 * d + 1) c)).walk i d).ahead = SWalk.ahead { z.walk i d with cur := c } := by
        simp [SWalk.ahead, SNSpec.walk, SNSpec.set_same, SCSpec.put]
      have hlt' : ∀ a ∈ ks ++ [k], ∀ b ∈ ((z.set i ((z.maps i).put (2 * d + 1) c)).walk i d).ahead, less i a b = true := fun a ha b hb => by
        rw [hah] at hb
        have hkb := hgt b hb
        rcases List.mem_append.1 ha with ha | ha
        · exact (hw i).trans _ _ _ (hlt a ha k (List.mem_of_mem_head? (by rw [hk]; rfl))) hkb
        · simp only [List.mem_singleton] at ha; subst ha; exact hkb
      by_cases hs : sameKey (less i) q k = true
      · exact ⟨k, (eachLoop_ascending hw hcb hn fuel r1 (ks ++ [k]) hp'.nok (add k hk) hlt' t' ks' s' hc).2 k (by simp), hs⟩
      · have hr' := hr.walk i d (by omega)
        obtain ⟨k1, k2⟩ := hr'.keep q hq hm
        refine ih r1 (ks ++ [k]) hp'.nok (add k hk) hlt' ?_ ?_ t' ks' s' hc
        · rw [SNSpec.set_same]; exact k1
        · rw [SNSpec.set_same]
          simp only [SCSpec.put, if_true]
          refine hr'.wok.before_next (hw i) hnx k1 (k2 hb) (fun k' hk' => ?_)
          rw [hkz] at hk'; cases hk'
          simpa using hs

/-! ## Callbacks that only read the map of the loop -/

/-- What client code inside `d` loops that only reads map `i` leaves alone. -/
def SNLeaves (i d : Nat) (s s' : SNSpec K V) : Prop :=
  (s'.maps i).map = (s.maps i).map ∧ ∀ x < d, (s'.maps i).curs (2 * x + 1) = (s.maps i).curs (2 * x + 1)

theorem SNLeaves.trans {i d : Nat} {a b c : SNSpec K V} (h1 : SNLeaves i d a b) (h2 : SNLeaves i d b c) : SNLeaves i d a c :=
  ⟨h2.1.trans h1.1, fun x hx => (h2.2 x hx).trans (h1.2 x hx)⟩

theorem SNLeaves.set {i d j : Nat} {s : SNSpec K V} {y : SCSpec K V}
    (h : j = i → y.map = (s.maps i).map ∧ ∀ x < d, y.curs (2 * x + 1) = (s.maps i).curs (2 * x + 1)) : SNLeaves i d s (s.set j y) := by
  by_cases hj : i = j
  · subst hj; unfold SNLeaves; rw [SNSpec.set_same]; exact h rfl
  · unfold SNLeaves; rw [SNSpec.set_other _ _ hj]; exact ⟨rfl, fun _ _ => rfl⟩

theorem SNLeaves.put {i d j : Nat} (s : SNSpec K V) (c : SCur K) : SNLeaves i d s (s.set j ((s.maps j).put (2 * d + 1) c)) := by
  refine SNLeaves.set (fun hj => ?_)
  subst hj
  refine ⟨rfl, fun x hx => ?_⟩
  have : ¬ (2 * x + 1 = 2 * d + 1) := by omega
  simp only [SCSpec.put, if_neg this]

theorem SNLeaves.point {i d j : Nat} (s : SNSpec K V) (p : Nat) (q : Option (SPlace K)) : SNLeaves i d s (s.set j ((s.maps j).point p q)) :=
  SNLeaves.set (fun hj => by subst hj; exact ⟨rfl, fun _ _ => rfl⟩)

theorem SCOp.Reading.step {op : SCOp K V} (h : op.Reading) (ls : K → K → Bool) (s : SCSpec K V) (x : Nat) :
    (s.step ls op.outer).2.map = s.map ∧ (s.step ls op.outer).2.curs (2 * x + 1) = s.curs (2 * x + 1) := by
  have hne : ∀ c, 2 * x + 1 ≠ 2 * c := fun c => by omega
  cases op with
  | map r o =>
    cases o <;> first | exact h.elim | skip
    all_goals
      refine ⟨rfl, ?_⟩
      show SCur.after ls s.map _ _ _ = _
      exact SCur.after_id (by simp) (by simp) _
  | write p v => exact h.elim
  | next c => simp only [SCOp.outer, SCSpec.step]; split <;> simp [SCSpec.put, hne]
  | pointer p c => simp only [SCOp.outer, SCSpec.step]; split <;> simp [SCSpec.point]
  | read c => simp only [SCOp.outer, SCSpec.step]; split <;> exact ⟨rfl, rfl⟩
  | find p k => simp [SCOp.outer, SCSpec.step, SCSpec.point]
  | isNotEnd c => exact ⟨rfl, rfl⟩
  | key c => simp only [SCOp.outer, SCSpec.step]; split <;> exact ⟨rfl, rfl⟩
  | value c => simp only [SCOp.outer, SCSpec.step]; split <;> exact ⟨rfl, rfl⟩
  | _ => simp [SCOp.outer, SCSpec.step, SCSpec.put, hne]

theorem eachLoop_leaves {d i j : Nat} {cb : σ → K → V → SNSpec K V → Res (SNSpec K V) (σ × Bool)}
    (hcb : ∀ t k v s r s', cb t k v s = .ok r s' → SNLeaves i (d + 1) s s') (fuel : Nat) : ∀ (t : σ) (s : SNSpec K V) r s',
    SNSpec.eachLoop less j (2 * d + 1) cb fuel t s = .ok r s' → SNLeaves i d s s' := by
  induction fuel with
  | zero => intro t s r s' h; cases h
  | succ fuel ih =>
    intro t s r s' h
    simp only [SNSpec.eachLoop] at h
    split at h
    · cases h; exact ⟨rfl, fun _ _ => rfl⟩
    · split at h
      · rename_i e
        have h0 := hcb _ _ _ _ _ _ e
        split at h
        · exact (SNLeaves.trans ⟨h0.1, fun x hx => h0.2 x (by omega)⟩ (SNLeaves.put _ _)).trans (ih _ _ _ _ h)
        · cases h
      · rename_i e
        have h0 := hcb _ _ _ _ _ _ e
        cases h; exact ⟨h0.1, fun x hx => h0.2 x (by omega)⟩
      · cases h
      · cases h

theorem SNProg.spec_leaves {hangs : Prop} {i : Nat} (F : Nat) {α : Type} (p : SNProg K V α) :
    p.Calls hangs (fun j op => j = i → op.Reading) → ∀ (d : Nat) (s : SNSpec K V) a s', p.spec less F d s = .ok a s' → SNLeaves i d s s' := by
  induction p with
  | ret a => intro _ d s b s' h; cases h; exact ⟨rfl, fun _ _ => rfl⟩
  | panic => intro _ d s b s' h; cases h
  | hang => intro _ d s b s' h; cases h
  | call j op k ih =>
    intro hp d s b s' h
    have h0 : SNLeaves i d s (s.set j ((s.maps j).step (less j) op.outer).2) := by
      refine SNLeaves.set (fun hj => ?_)
      subst hj
      exact ⟨((hp.1 rfl).step (less j) (s.maps j) 0).1, fun x _ => ((hp.1 rfl).step (less j) (s.maps j) x).2⟩
    simp only [SNProg.spec] at h
    split at h
    · cases h
    · exact h0.trans (ih _ (hp.2 _) _ _ _ _ h)
  | each j cb t k ih1 ih2 =>
    intro hp d s b s' h
    obtain ⟨t', z, e1, e2⟩ := Res.andThen_ok h
    exact ((SNLeaves.put _ _).trans (eachLoop_leaves (fun t k v s r s' h => ih1 t k v (hp.1 t k v) _ _ _ _ h) F _ _ _ _ e1)).trans (ih2 _ (hp.2 _) _ _ _ _ e2)
  | eachPtr p j cb t k ih1 ih2 =>
    intro hp d s b s' h
    obtain ⟨t', z, e1, e2⟩ := Res.andThen_ok h
    exact ((SNLeaves.put _ _).trans (eachLoop_leaves (fun t k v s r s' h => (SNLeaves.point _ _ _).trans (ih1 t k (hp.1 t k) _ _ _ _ h)) F _ _ _ _ e1)).trans (ih2 _ (hp.2 _) _ _ _ _ e2)

/-- A loop that is on an entry that is still in the map. -/
theorem cur_at {ls : K → K → Bool} (hw : StrictWeak ls) {s : SCSpec K V} {pre es : List (K × V)} {e : K × V} (hm : s.map = pre ++ e :: es)
    (hs : SMap.Sorted ls s.map) {c : SCur K} (hc : c = { start := some e.1 }) :
    c.place.bind (s.entry ls) = some e ∧ c.next ls s.map = some { start := es.head?.map (·.1) } := by
  have sp : SSplit ls e.1 s.map pre [e] es := by
    have hs' := hs
    rw [hm] at hs'
    unfold SMap.Sorted at hs'
    rw [List.pairwise_append, List.pairwise_cons] at hs'
    obtain ⟨_, ⟨h2, _⟩, h3⟩ := hs'
    refine ⟨by simpa using hm, fun x hx => h3 x hx e (by simp), ?_, ?_, by simp⟩
    · simp [hw.irrefl]
    · exact fun x hx => h2 x hx
  subst hc
  refine ⟨?_, ?_⟩
  · show s.map.find? (fun x => sameKey ls e.1 x.1) = some e
    rw [hm, List.find?_append]
    have : pre.find? (fun x => sameKey ls e.1 x.1) = none := List.find?_eq_none.2 (fun x hx => by rw [sameKey_go sp hx]; simp)
    rw [this]
    simp [sameKey, hw.irrefl]
  · simp only [SCur.next]
    rw [SMap.succ_split hw sp]

variable {impl : Nat → SLImpl K}

theorem forEachIfLoopN_visits (hl : ∀ i, (impl i).Lawful) (F d i : Nat) (cb : σ → K → V → SNProg K V (σ × Bool))
    (hcb : ∀ t k v, (cb t k v).Calls True (fun j op => j = i → op.Reading)) (fuel : Nat) :
    ∀ (es pre : List (K × V)) (t : σ) (w : SNWorld K V) (hid : Nat → Nat → Option Nat) (s : SNSpec K V), NInv impl w hid s →
      SMap.Sorted (impl i).less (s.maps i).map → (s.maps i).map = pre ++ es → (s.maps i).curs (2 * d + 1) = { start := es.head?.map (·.1) } → es.length < fuel →
      SL.forEachIfLoopN i (fun t k v => (cb t k v).exec impl F) fuel (hid i d) t w = visitEntries (fun t k v => (cb t k v).exec impl F) es t w := by
  induction fuel with
  | zero => intro es pre t w hid s _ _ _ _ h; omega
  | succ fuel ih =>
    intro es pre t w hid s hi hs hm hc hf
    cases es with
    | nil =>
      rcases hi.cases hl i d with ⟨_, e2⟩ | ⟨q, nd, e, c, nx, e1, _⟩
      · simp only [e2, SL.forEachIfLoopN, visitEntries]
      · rw [hc] at e1; simp [SCur.place] at e1
    | cons e es =>
      obtain ⟨p1, _⟩ := cur_at (hl i).weak hm hs (c := (s.maps i).curs (2 * d + 1)) hc
      rcases hi.cases hl i d with ⟨e1, _⟩ | ⟨q, nd, e', c, nx, e1, e2, e3, e4, e5, _⟩
      · rw [p1] at e1; cases e1
      · rw [p1] at e1
        cases e1
        have hd : (w.lists i).sl.deref q = .ret nd := by simp [SL.deref, idx, e3]
        simp only [e2, SL.forEachIfLoopN, visitEntries, GoM.bind_def, SNWorld.read, hd, e4, e5]
        have hb := SNProg.exec_settles hl F (cb t e.1 e.2) (d + 1) w hid s hi
        revert hb
        cases (cb t e.1 e.2).exec impl F w with
        | panic w' => intro _; rfl
        | diverge => intro _; rfl
        | ok r w' =>
          cases hsp : (cb t e.1 e.2).spec (fun i => (impl i).less) F (d + 1) s with
          | panic => exact fun hb => hb.elim
          | diverge => exact fun hb => hb.elim
          | ok r' s' =>
            rintro ⟨rfl, hid', b1, b2⟩
            obtain ⟨t', b⟩ := r
            cases b with
            | false => rfl
            | true =>
              obtain ⟨l1, l2⟩ := SNProg.spec_leaves F (cb t e.1 e.2) (hcb t e.1 e.2) (d + 1) s _ _ hsp
              have hd' : hid' i d = some q := (b1 i d (by omega)).trans e2
              rcases b2.cases hl i d with ⟨_, f⟩ | ⟨q', nd', e', c', nx', f1, f2, f3, _, _, f6, f7, f8⟩
              · rw [hd'] at f; cases f
              · rw [hd'] at f2
                cases f2
                have hn : (w'.lists i).sl.nextAt (.node q) 0 = .ret nx' := by simp [SL.nextAt, SL.deref, idx, f3, f6]
                simp only [Bool.true_eq_false, if_false, GoM.bind_def, SNWorld.read, hn]
                have e0 : setHidN hid' i d nx' i d = nx' := by simp [setHidN]
                have hc' := (l2 d (by omega)).trans hc
                have hm' := l1.trans hm
                obtain ⟨_, p2⟩ := cur_at (hl i).weak hm' (by rw [l1]; exact hs) (c := (s'.maps i).curs (2 * d + 1)) hc'
                rw [p2] at f7
                cases f7
                have := ih es (pre ++ [e]) t' w' _ _ f8 (by rw [SNSpec.set_same]; show SMap.Sorted _ (s'.maps i).map; rw [l1]; exact hs)
                  (by rw [SNSpec.set_same]; show (s'.maps i).map = _; rw [hm']; simp) (by rw [SNSpec.set_same]; simp [SCSpec.put]) (by simpa using hf)
                rw [e0] at this
                exact this

theorem forEachIfN_visits (hl : ∀ i, (impl i).Lawful) (F i : Nat) (cb : σ → K → V → SNProg K V (σ × Bool))
    (hcb : ∀ t k v, (cb t k v).Calls True (fun j op => j = i → op.Reading)) (t : σ) {w : SNWorld K V} {hid : Nat → Nat → Option Nat} {s : SNSpec K V}
    (hi : NInv impl w hid s) (hs : SMap.Sorted (impl i).less (s.maps i).map) (hf : (s.maps i).map.length < F) :
    SL.forEachIfN F i (fun t k v => (cb t k v).exec impl F) t w = visitEntries (fun t k v => (cb t k v).exec impl F) (s.maps i).map t w := by
  obtain ⟨n, e, h⟩ := hi.start i 0
  have := forEachIfLoopN_visits hl F 0 i cb hcb F (s.maps i).map [] t w _ _ h (by rw [SNSpec.set_same]; exact hs) (by rw [SNSpec.set_same]; rfl)
    (by rw [SNSpec.set_same]; simp [SCSpec.put]) hf
  have e0 : setHidN hid i 0 n i 0 = n := by simp [setHidN]
  rw [e0] at this
  simp only [SL.forEachIfN, GoM.bind_def, SNWorld.read, e]
  exact this

theorem visitEntries_pure {S : Type} (f : σ → K → V → GoM S (σ × Bool)) (g : σ → K × V → σ) (w : S) (es : List (K × V))
    (h : ∀ t, ∀ e ∈ es, f t e.1 e.2 w = .ok (g t e, true) w) : ∀ t, visitEntries f es t w = .ok (es.foldl g t) w := by
  induction es with
  | nil => intro t; rfl
  | cons e es ih =>
    intro t
    simp only [visitEntries, GoM.bind_def, h t e (by simp), List.foldl_cons, Bool.true_eq_false, if_false]
    exact ih (fun t e he => h t e (by simp [he])) _

/-! ## `ForEach` and `ForEachMutable` -/

theorem forEachLoopN_eq (i : Nat) (cb : σ → K → V → GoM (SNWorld K V) σ) (fuel : Nat) : ∀ n t,
    SL.forEachLoopN i cb fuel n t = SL.forEachIfLoopN i (fun t k v => do let t ← cb t k v; return (t, true)) fuel n t := by
  induction fuel with
  | zero => intros; rfl
  | succ fuel ih =>
    intro n t
    cases n with
    | none => rfl
    | some e =>
      funext w
      simp only [SL.forEachLoopN, SL.forEachIfLoopN, ih, GoM.bind_def]
      cases SNWorld.read i (fun sl => sl.deref e) w with
      | ok nd w1 =>
        simp only
        cases cb t nd.key nd.value w1 <;> simp only [GoM.pure_apply] <;> rfl
      | panic w1 => rfl
      | diverge => rfl

theorem forEachMutableLoopN_eq (p i : Nat) (cb : σ → K → GoM (SNWorld K V) σ) (fuel : Nat) : ∀ n t,
    SL.forEachMutableLoopN p i cb fuel n t = SL.forEachMutableIfLoopN p i (fun t k => do let t ← cb t k; return (t, true)) fuel n t := by
  induction fuel with
  | zero => intros; rfl
  | succ fuel ih =>
    intro n t
    cases n with
    | none => rfl
    | some e =>
      funext w
      simp only [SL.forEachMutableLoopN, SL.forEachMutableIfLoopN, ih, GoM.bind_def]
      cases SNWorld.read i (fun sl => sl.deref e) w with
      | ok nd w1 =>
        simp only
        cases SNWorld.keepPtr p i e w1 with
        | ok _ w2 =>
          simp only
          cases cb t nd.key w2 <;> simp only [GoM.pure_apply] <;> rfl
        | panic w2 => rfl
        | diverge => rfl
      | panic w1 => rfl
      | diverge => rfl

end Stl4go
