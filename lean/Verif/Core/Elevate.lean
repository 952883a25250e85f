import Verif.Model.Degree
import Verif.Core.RemoveMany

/-!
# Degree elevation (helper lemmas)
-/

namespace SplineLib
set_option linter.unusedSectionVars false

theorem bind_eq_ok {α β : Type} {x : M α} {f : α → M β} {b : β} : (x >>= f) = .ok b ↔ ∃ a, x = .ok a ∧ f a = .ok b := by
  cases x with
  | error e => simp
  | ok a => simp

theorem getN_eq_ok {α : Type} {v : List α} {i : ℕ} {a : α} : getN v i = .ok a ↔ v[i]? = some a := by
  unfold getN
  cases v[i]? <;> simp

theorem getI_eq_ok {α : Type} {v : List α} {i : ℤ} {a : α} (h : getI v i = .ok a) : 0 ≤ i ∧ v[i.toNat]? = some a := by
  unfold getI at h
  split_ifs at h with h1
  · refine ⟨by omega, ?_⟩
    cases hv : v[i.toNat]? <;> simp_all
  all_goals simp_all

theorem setI_eq_ok {α : Type} {v w : List α} {i : ℤ} {a : α} (h : setI v i a = .ok w) : 0 ≤ i ∧ i < v.length ∧ w = v.set i.toNat a := by
  unfold setI at h
  split_ifs at h with h1
  exact ⟨h1.1, h1.2, (Except.ok.inj h).symm⟩

section
variable {K : Type} [Field K] [LinearOrder K] [IsStrictOrderedRing K]

/-! ### Partial correctness of loops -/

theorem downLoop_pres {σ : Type} {body : MIH → σ → M σ} (P : σ → Prop) (hb : ∀ h s s', P s → body h s = .ok s' → P s') :
    ∀ (n : ℕ) (h : MIH) (s s' : σ), P s → downLoop body n h s = .ok s' → P s' := by
  intro n
  induction n with
  | zero => intro h s s' hp he; simp only [downLoop, Except.ok.injEq] at he; rw [← he]; exact hp
  | succ n ih =>
    intro h s s' hp he
    rw [downLoop, bind_eq_ok] at he
    obtain ⟨s1, h1, h2⟩ := he
    exact ih _ _ _ (hb _ _ _ hp h1) h2

theorem forLoop_pres {σ : Type} {body : ℕ → σ → M σ} (P : σ → Prop) : ∀ (n i : ℕ)
    (_ : ∀ j s s', i ≤ j → j < i + n → P s → body j s = .ok s' → P s') (s s' : σ), P s → Spl.forLoop body n i s = .ok s' → P s' := by
  intro n
  induction n with
  | zero => intro i _ s s' hp he; simp only [Spl.forLoop, Except.ok.injEq] at he; rw [← he]; exact hp
  | succ n ih =>
    intro i hb s s' hp he
    rw [Spl.forLoop, bind_eq_ok] at he
    obtain ⟨s1, h1, h2⟩ := he
    exact ih (i + 1) (fun j s s' a b => hb j s s' (by omega) (by omega)) _ _ (hb i _ _ (le_refl _) (by omega) hp h1) h2

/-! ### Shape of the physical space under insertion, without any hypothesis on the data -/

theorem setCP_shape {ph ph' : Phys K} {ix : List ℤ} {cp : List K} {num : List ℤ} (h : ph.setCP ix cp num = .ok ph') :
    ph'.num = ph.num ∧ ph'.dim = ph.dim := by
  unfold Phys.setCP at h
  rw [bind_eq_ok] at h
  obtain ⟨_, _, h2⟩ := h
  rw [← Except.ok.inj h2]
  exact ⟨rfl, rfl⟩

theorem setWeight_shape {ph ph' : Phys K} {ix : List ℤ} {v : K} {num : List ℤ} (h : ph.setWeight ix v num = .ok ph') :
    ph'.num = ph.num ∧ ph'.dim = ph.dim := by
  unfold Phys.setWeight at h
  rw [bind_eq_ok] at h
  obtain ⟨_, _, h2⟩ := h
  rw [bind_eq_ok] at h2
  obtain ⟨_, _, h2⟩ := h2
  rw [← Except.ok.inj h2]
  exact ⟨rfl, rfl⟩

theorem addCPs_shape (ph : Phys K) (n : ℤ) : (ph.addCPs n).num = ph.num ∧ (ph.addCPs n).dim = ph.dim := by
  exact ⟨rfl, rfl⟩

theorem adjustCPs_shape {ph ph' : Phys K} {scaling : List K} {first last : ℤ} {d : ℕ} (h : Spl.adjustCPs ph scaling first last d = .ok ph') :
    ph'.num = ph.num.modify d (· + 1) ∧ ph'.dim = ph.dim := by
  unfold Spl.adjustCPs at h
  rw [bind_eq_ok] at h
  obtain ⟨m, _, h⟩ := h
  rw [bind_eq_ok] at h
  obtain ⟨n, _, h⟩ := h
  rw [bind_eq_ok] at h
  obtain ⟨ph2, h1, h⟩ := h
  have hp := downLoop_pres (body := Spl.adjustBody scaling first last d) (fun q : Phys K => q.num = ph.num ∧ q.dim = ph.dim) (by
    intro h q q' hq he
    unfold Spl.adjustBody at he
    rw [bind_eq_ok] at he
    obtain ⟨cur, _, he⟩ := he
    split at he
    · rw [bind_eq_ok] at he
      obtain ⟨_, _, he⟩ := he
      have := setCP_shape he
      rw [this.1, this.2]; exact hq
    · rw [bind_eq_ok] at he
      obtain ⟨_, _, he⟩ := he
      rw [bind_eq_ok] at he
      obtain ⟨_, _, he⟩ := he
      rw [bind_eq_ok] at he
      obtain ⟨q1, h1, he⟩ := he
      have a := setCP_shape h1
      have b := setWeight_shape he
      rw [b.1, b.2, a.1, a.2]; exact hq) _ _ _ _ (addCPs_shape ph n) h1
  rw [← Except.ok.inj h]
  exact ⟨by simp only [hp.1], hp.2⟩

theorem insertRounds_shape {U : List K} {p : ℕ} {x : K} {d : ℕ} : ∀ (n i : ℕ) (span : ℤ) (ph ph' : Phys K),
    Spl.insertRounds U p x d n i span ph = .ok ph' → ph'.num = ph.num.modify d (· + (n : ℤ)) ∧ ph'.dim = ph.dim := by
  intro n
  induction n with
  | zero =>
    intro i span ph ph' h
    simp only [Spl.insertRounds, Except.ok.injEq] at h
    rw [← h]
    refine ⟨?_, rfl⟩
    have : (fun x : ℤ => x + ((0 : ℕ) : ℤ)) = id := by funext x; simp
    rw [this, List.modify_id]
  | succ n ih =>
    intro i span ph ph' h
    rw [Spl.insertRounds, bind_eq_ok] at h
    obtain ⟨b, _, h⟩ := h
    rw [bind_eq_ok] at h
    obtain ⟨sc, _, h⟩ := h
    rw [bind_eq_ok] at h
    obtain ⟨ph1, h1, h⟩ := h
    have a := adjustCPs_shape h1
    obtain ⟨b1, b2⟩ := ih _ _ _ _ h
    refine ⟨?_, b2.trans a.2⟩
    rw [b1, a.1, List.modify_modify_eq]
    congr 1
    funext x
    simp only [Function.comp]
    push_cast; ring

theorem psInsert_degree {ps ps' : PS K} {x : K} {d : ℕ} (h : ps.insertKnot x d = .ok ps') : ps'.degree = ps.degree := by
  unfold PS.insertKnot at h
  rw [bind_eq_ok] at h
  obtain ⟨_, _, h⟩ := h
  rw [bind_eq_ok] at h
  obtain ⟨_, _, h⟩ := h
  unfold PS.recreate at h
  rw [bind_eq_ok] at h
  obtain ⟨_, _, h⟩ := h
  rw [← Except.ok.inj h]

theorem insertKnotsPS_degree {x : K} {d : ℕ} : ∀ (n : ℕ) (ps ps' : PS K), Spl.insertKnotsPS x d n ps = .ok ps' → ps'.degree = ps.degree := by
  intro n
  induction n with
  | zero => intro ps ps' h; simp only [Spl.insertKnotsPS, Except.ok.injEq] at h; rw [h]
  | succ n ih =>
    intro ps ps' h
    rw [Spl.insertKnotsPS, bind_eq_ok] at h
    obtain ⟨ps1, h1, h⟩ := h
    rw [ih _ _ h, psInsert_degree h1]

/-- What remains true of the shape of a spline under insertions that succeed. -/
structure Grown (s s' : Spl K) (d : ℕ) : Prop where
  degree : s'.ps.degree = s.ps.degree
  dim : s'.ph.dim = s.ph.dim
  num : ∃ m : ℕ, s'.ph.num = s.ph.num.modify d (· + (m : ℤ))

theorem Grown.refl (s : Spl K) (d : ℕ) : Grown s s d :=
  ⟨rfl, rfl, 0, by
    have : (fun x : ℤ => x + ((0 : ℕ) : ℤ)) = id := by funext x; simp
    rw [this, List.modify_id]⟩

theorem Grown.trans {s s1 s2 : Spl K} {d : ℕ} (h1 : Grown s s1 d) (h2 : Grown s1 s2 d) : Grown s s2 d := by
  obtain ⟨m1, e1⟩ := h1.num
  obtain ⟨m2, e2⟩ := h2.num
  refine ⟨h2.degree.trans h1.degree, h2.dim.trans h1.dim, m1 + m2, ?_⟩
  rw [e2, e1, List.modify_modify_eq]
  congr 1
  funext x
  simp only [Function.comp]
  push_cast; ring

theorem insertKnot_grown {s s' : Spl K} {x : K} {d m : ℕ} (h : s.insertKnot x d m = .ok s') : Grown s s' d := by
  unfold Spl.insertKnot at h
  rw [bind_eq_ok] at h; obtain ⟨U, _, h⟩ := h
  rw [bind_eq_ok] at h; obtain ⟨p, _, h⟩ := h
  rw [bind_eq_ok] at h; obtain ⟨sp, _, h⟩ := h
  rw [bind_eq_ok] at h; obtain ⟨ph, h1, h⟩ := h
  rw [bind_eq_ok] at h; obtain ⟨ps, h2, h⟩ := h
  have e := (Except.ok.inj h).symm
  subst e
  obtain ⟨a, b⟩ := insertRounds_shape _ _ _ _ _ h1
  exact ⟨insertKnotsPS_degree _ _ _ h2, b, m, a⟩

theorem produceLoop_grown {d : ℕ} : ∀ (left : ℕ) (diff : List ℤ) (cur : ℕ) (s s' : Spl K) (df : List ℤ),
    Spl.produceLoop d left diff cur s = .ok (s', df) → Grown s s' d := by
  intro left
  induction left with
  | zero =>
    intro diff cur s s' df h
    rw [Spl.produceLoop.eq_def] at h
    dsimp only at h
    rw [bind_eq_ok] at h; obtain ⟨U, _, h⟩ := h
    split at h
    · exact absurd h (by simp)
    · rw [← (Prod.mk.inj (Except.ok.inj h)).1]; exact Grown.refl s d
  | succ left ih =>
    intro diff cur s s' df h
    rw [Spl.produceLoop.eq_def] at h
    dsimp only at h
    rw [bind_eq_ok] at h; obtain ⟨U, _, h⟩ := h
    split at h
    · rw [bind_eq_ok] at h; obtain ⟨p, _, h⟩ := h
      rw [bind_eq_ok] at h; obtain ⟨c, _, h⟩ := h
      rw [bind_eq_ok] at h; obtain ⟨x, _, h⟩ := h
      rw [bind_eq_ok] at h; obtain ⟨s1, h1, h⟩ := h
      exact (insertKnot_grown h1).trans (ih _ _ _ _ _ h)
    · rw [← (Prod.mk.inj (Except.ok.inj h)).1]; exact Grown.refl s d

theorem produceBezier_grown {s s' : Spl K} {d : ℕ} {df : List ℤ} (h : s.produceBezier d = .ok (s', df)) : Grown s s' d := by
  unfold Spl.produceBezier at h
  rw [bind_eq_ok] at h; obtain ⟨p, _, h⟩ := h
  rw [bind_eq_ok] at h; obtain ⟨U, _, h⟩ := h
  split at h
  · exact absurd h (by simp)
  · exact produceLoop_grown _ _ _ _ _ _ h

/-! ### The number of different knots -/

theorem kvNumDifferent_pos (U : List K) : 1 ≤ kvNumDifferent U := by
  induction U with
  | nil => simp [kvNumDifferent]
  | cons a l ih =>
    cases l with
    | nil => simp [kvNumDifferent]
    | cons b l => rw [kvNumDifferent]; omega

/-- On sorted knots `GetNumberOfDifferentKnots` is the number of different values. -/
theorem kvNumDifferent_eq_card : ∀ {U : List K}, U.Pairwise (· ≤ ·) → U ≠ [] → kvNumDifferent U = U.toFinset.card
  | [], _, h => absurd rfl h
  | [a], _, _ => by simp [kvNumDifferent]
  | a :: b :: l, hs, _ => by
    have hs' : (b :: l).Pairwise (· ≤ ·) := (List.pairwise_cons.1 hs).2
    have hab : ∀ c ∈ b :: l, a ≤ c := (List.pairwise_cons.1 hs).1
    rw [kvNumDifferent, kvNumDifferent_eq_card hs' (by simp), List.toFinset_cons (a := a)]
    split_ifs with h
    · rw [Finset.card_insert_of_notMem, Nat.add_comm]
      rw [List.mem_toFinset]
      intro hm
      rcases List.mem_cons.1 hm with e | e
      · exact absurd e (ne_of_lt h)
      · have := (List.pairwise_cons.1 hs').1 a e
        exact absurd h (not_lt.2 this)
    · have : a = b := le_antisymm (hab b (by simp)) (not_lt.1 h)
      rw [Finset.insert_eq_of_mem (by simp [this]), Nat.zero_add]

theorem two_le_kvNumDifferent {U : List K} {p : ℕ} (h : WFKnots U p) : 2 ≤ kvNumDifferent U := by
  have hne := h.ne_nil
  rw [kvNumDifferent_eq_card h.sorted hne]
  have hl : 0 < U.length := List.length_pos_iff.2 hne
  have h1 : knot U 0 ∈ U.toFinset := by rw [List.mem_toFinset, knot_eq hl]; exact List.getElem_mem _
  have h2 : lastKnot U ∈ U.toFinset := by
    rw [List.mem_toFinset]; unfold lastKnot; rw [knot_eq (by omega)]; exact List.getElem_mem _
  exact Finset.one_lt_card.2 ⟨_, h1, _, h2, ne_of_lt h.range⟩

/-! ### The missing coefficient -/

/-- Entry `p` of the first line is not touched by `elevateLine`. -/
theorem elevateLine_skip {p : ℕ} (hp : 1 ≤ p) {b : List (List K)} {alpha : List K} {i : ℕ} {new new' : List (List K)}
    (h : Spl.elevateLine p b alpha i new = .ok new') : new'[p]? = new[p]? := by
  unfold Spl.elevateLine at h
  dsimp only at h
  rw [bind_eq_ok] at h; obtain ⟨a, _, h⟩ := h
  rw [bind_eq_ok] at h; obtain ⟨n1, h1, h⟩ := h
  rw [bind_eq_ok] at h; obtain ⟨a2, _, h⟩ := h
  rw [bind_eq_ok] at h; obtain ⟨n2, h2, h⟩ := h
  have key : ∀ (j : ℤ), (0 ≤ j ∧ j ≠ p ∧ j ≤ p + 1) → ∀ (v w : List (List K)) (c : List K), setI v (j + ((p : ℤ) + 2) * i) c = .ok w →
      w[p]? = v[p]? := by
    intro j hj v w c he
    obtain ⟨_, _, e⟩ := setI_eq_ok he
    rw [e, List.getElem?_set_ne]
    intro hc
    have : j + ((p : ℤ) + 2) * i = p := by omega
    rcases Nat.eq_zero_or_pos i with hi | hi
    · subst hi; simp at this; omega
    · have : ((p : ℤ) + 2) * 1 ≤ ((p : ℤ) + 2) * i := by
        apply mul_le_mul_of_nonneg_left <;> omega
      omega
  have e1 := key 0 (by omega) _ _ _ h1
  have e2 := key ((p : ℤ) + 2 - 1) (by omega) _ _ _ h2
  rw [← e1, ← e2]
  refine forLoop_pres (fun v : List (List K) => v[p]? = n2[p]?) _ _ ?_ _ _ rfl h
  intro j s s' hj1 hj2 hs he
  rw [bind_eq_ok] at he; obtain ⟨_, _, he⟩ := he
  rw [bind_eq_ok] at he; obtain ⟨_, _, he⟩ := he
  rw [bind_eq_ok] at he; obtain ⟨_, _, he⟩ := he
  rw [bind_eq_ok] at he; obtain ⟨_, _, he⟩ := he
  rw [key j (by omega) _ _ _ he, hs]

theorem elevateBezier_zero {s : Spl K} {d p : ℕ} (hp : s.ps.degree[d]? = some p) (h1 : 1 ≤ p) {b new : List (List K)} {alpha : List K}
    (h : s.elevateBezier d b alpha = .ok new) : new[p]? = none ∨ new[p]? = some (List.replicate (s.ph.dim + 1) 0) := by
  unfold Spl.elevateBezier at h
  rw [getN_eq_ok.2 hp, ok_bind, bind_eq_ok] at h; obtain ⟨nd, _, h⟩ := h
  rw [bind_eq_ok] at h; obtain ⟨len, _, h⟩ := h
  split at h
  · exact absurd h (by simp)
  · have := forLoop_pres (fun v : List (List K) => v[p]? = (List.replicate (((p : ℤ) + 2) * len).toNat (List.replicate (s.ph.dim + 1) (0 : K)))[p]?) _ _
      (fun j s s' _ _ hs he => by rw [elevateLine_skip h1 he, hs]) _ _ rfl h
    rw [this, List.getElem?_replicate]
    split_ifs
    · exact Or.inr rfl
    · exact Or.inl rfl

theorem buildList_eq_ok {α : Type} {f : ℕ → M α} : ∀ {n : ℕ} {l : List α}, buildList f n = .ok l →
    l.length = n ∧ ∀ i < n, ∃ a, l[i]? = some a ∧ f i = .ok a := by
  intro n
  induction n with
  | zero => intro l h; simp only [buildList, Except.ok.injEq] at h; rw [← h]; simp
  | succ n ih =>
    intro l h
    rw [buildList, bind_eq_ok] at h; obtain ⟨l1, h1, h⟩ := h
    rw [bind_eq_ok] at h; obtain ⟨a, h2, h⟩ := h
    have e := (Except.ok.inj h).symm
    subst e
    obtain ⟨i1, i2⟩ := ih h1
    refine ⟨by simp [i1], fun i hi => ?_⟩
    rcases Nat.lt_succ_iff_lt_or_eq.1 hi with hi | rfl
    · obtain ⟨b, b1, b2⟩ := i2 i hi
      exact ⟨b, by rw [List.getElem?_append_left (by omega)]; exact b1, b2⟩
    · exact ⟨a, by rw [List.getElem?_append_right (by omega)]; simp [i1], h2⟩

theorem forEach_degree {d : ℕ} : ∀ (l : List K) (ps ps' : PS K), PS.forEach (fun ps x => ps.insertKnot x d) l ps = .ok ps' →
    ps'.degree = ps.degree := by
  intro l
  induction l with
  | nil => intro ps ps' h; simp only [PS.forEach, Except.ok.injEq] at h; rw [h]
  | cons x l ih =>
    intro ps ps' h
    rw [PS.forEach, bind_eq_ok] at h; obtain ⟨ps1, h1, h⟩ := h
    rw [ih _ _ h, psInsert_degree h1]

theorem setNewCP_dim {ph ph' : Phys K} {cp : List K} {w : K} {ix : List ℤ} (h : Spl.setNewCP ph cp w ix = .ok ph') : ph'.dim = ph.dim := by
  unfold Spl.setNewCP at h
  rw [bind_eq_ok] at h; obtain ⟨ph1, h1, h⟩ := h
  have a := setCP_shape h1
  split at h
  · rw [← Except.ok.inj h]; exact a.2
  · rw [(setWeight_shape h).2, a.2]

theorem setBezierBody_dim {segs : List (List (List K))} {p d : ℕ} {h : MIH} {ph ph' : Phys K}
    (he : Spl.setBezierBody segs p d h ph = .ok ph') : ph'.dim = ph.dim := by
  unfold Spl.setBezierBody at he
  dsimp only at he
  rw [bind_eq_ok] at he; obtain ⟨_, _, he⟩ := he
  split at he
  · exact absurd he (by simp)
  · rw [bind_eq_ok] at he; obtain ⟨_, _, he⟩ := he
    rw [bind_eq_ok] at he; obtain ⟨_, _, he⟩ := he
    rw [bind_eq_ok] at he; obtain ⟨_, _, he⟩ := he
    rw [bind_eq_ok] at he; obtain ⟨_, _, he⟩ := he
    exact setNewCP_dim he

theorem fdiv_zero_error (a : K) : fdiv a 0 = .error .nonfinite := by simp [fdiv]

/-- `SetNewBezierSegmentControlPoints` fails when it meets the entry that was left out. -/
theorem setBezierBody_fails {segs : List (List (List K))} {p d : ℕ} (hp : 1 ≤ p) {ns I : List ℕ} (hd : d < ns.length) (hI : InBox ns I)
    (hk : ixd I d = p) (hrow : row ns d I = 0) {ph : Phys K} (hdim : 0 < ph.dim)
    {seg : List (List K)} (hs : segs[0]? = some seg) (hz : seg[p]? = none ∨ seg[p]? = some (List.replicate (ph.dim + 1) 0)) {ph' : Phys K} :
    Spl.setBezierBody segs (p + 1) d ⟨zl ns, zl I⟩ ph ≠ .ok ph' := by
  intro he
  have hl := hI.length
  unfold Spl.setBezierBody MIH.at' at he
  dsimp only at he
  rw [getN_zl (by omega), ok_bind, extractDimension_zl hd hI, hrow, hk, if_neg (by push_cast; omega)] at he
  have e1 : (p : ℤ).tdiv (((p + 1 : ℕ) : ℤ) + 1 - 1) = 0 := by
    rw [Int.tdiv_eq_zero_of_lt (by omega)]; push_cast; omega
  have e2 : (p : ℤ).tmod (((p + 1 : ℕ) : ℤ) + 1 - 1) = p := by
    rw [Int.tmod_eq_of_lt (by omega)]; push_cast; omega
  have e3 : toSizeT 0 = 0 := by simp [toSizeT]
  rw [e1, e2, e3] at he
  simp only [show ¬ (0 > toSizeT ((segs.length : ℤ) - 1)) by omega, decide_false, Bool.false_eq_true, if_false, Nat.cast_zero, zero_mul,
    add_zero] at he
  rw [bind_eq_ok] at he; obtain ⟨sg, h1, he⟩ := he
  have h1 := (getI_eq_ok h1).2
  rw [Int.toNat_zero, hs] at h1
  have e := (Option.some.inj h1).symm
  subst e
  rw [bind_eq_ok] at he; obtain ⟨pt, h1, he⟩ := he
  have h1 := (getI_eq_ok h1).2
  rw [Int.toNat_natCast] at h1
  have hpt : pt = List.replicate (ph.dim + 1) 0 := by
    rcases hz with hz | hz
    · rw [hz] at h1; simp at h1
    · rw [hz] at h1; exact (Option.some.inj h1).symm
  rw [bind_eq_ok] at he; obtain ⟨w, h2, he⟩ := he
  have h2 := getN_eq_ok.1 h2
  rw [hpt, List.getElem?_replicate, if_pos (by omega)] at h2
  have hw := (Option.some.inj h2).symm
  subst hw
  rw [bind_eq_ok] at he; obtain ⟨cp, h3, he⟩ := he
  obtain ⟨_, h4⟩ := buildList_eq_ok h3
  obtain ⟨a, _, h5⟩ := h4 0 hdim
  rw [bind_eq_ok] at h5; obtain ⟨_, _, h5⟩ := h5
  rw [fdiv_zero_error] at h5
  simp at h5

theorem psElevate_degree {ps ps' : PS K} {d p : ℕ} (hp : ps.degree[d]? = some p) (h : ps.elevateDegree d = .ok ps') :
    ps'.degree[d]? = some (p + 1) := by
  unfold PS.elevateDegree at h
  rw [getN_eq_ok.2 hp, ok_bind] at h
  unfold PS.recreate at h
  rw [bind_eq_ok] at h; obtain ⟨_, _, h⟩ := h
  rw [← Except.ok.inj h]
  simp only
  rw [List.getElem?_set_self (lt_of_some hp)]

theorem lin_zeros : ∀ (ms ns : List ℕ), lin ms (ns.map fun _ => 0) = 0
  | [], [] => rfl
  | [], _ :: _ => rfl
  | _ :: _, [] => rfl
  | m :: ms, n :: ns => by simp only [List.map_cons, lin]; rw [lin_zeros ms ns]; simp

theorem row_single {ns : List ℕ} {d k : ℕ} : row ns d ((ns.map fun _ => 0).set d k) = 0 := by
  unfold row
  rw [List.set_set]
  have : (ns.map fun _ => 0).set d 0 = ns.map fun _ => 0 := by
    apply List.ext_getElem?
    intro i
    rw [List.getElem?_set]
    split_ifs with h1 h2
    · subst h1
      simp only [List.length_map] at h2
      rw [List.getElem?_map, List.getElem?_eq_getElem h2]; rfl
    · subst h1
      rw [List.getElem?_eq_none (by omega)]
    · rfl
  rw [this]
  exact lin_zeros _ _

/-- For degree at least 1 `ElevateDegreeForDimension` never succeeds. -/
theorem elevateDegree_fails [HasSqrt K] {s : Spl K} (h : WFSpl s) {d p : ℕ} (hp : s.ps.degree[d]? = some p) (h1 : 1 ≤ p) (r : Spl K) : s.elevateDegree d ≠ .ok r := by
  intro he
  unfold Spl.elevateDegree at he
  rw [bind_eq_ok] at he; obtain ⟨U, hU, he⟩ := he
  have hU := getN_eq_ok.1 hU
  have hw := forall₂_get h.knots hU hp
  rw [getN_eq_ok.2 hp, ok_bind] at he
  dsimp only at he
  rw [bind_eq_ok] at he; obtain ⟨⟨s1, df⟩, hg, he⟩ := he
  have hg := produceBezier_grown hg
  dsimp only at he
  rw [bind_eq_ok] at he; obtain ⟨segs, hsegs, he⟩ := he
  rw [bind_eq_ok] at he; obtain ⟨U1, _, he⟩ := he
  rw [bind_eq_ok] at he; obtain ⟨old, _, he⟩ := he
  rw [bind_eq_ok] at he; obtain ⟨ps1, hps1, he⟩ := he
  rw [bind_eq_ok] at he; obtain ⟨ps2, hps2, he⟩ := he
  rw [bind_eq_ok] at he; obtain ⟨s2, hs2, _⟩ := he
  have hp1 : s1.ps.degree[d]? = some p := by rw [hg.degree]; exact hp
  have hd1 := psElevate_degree hp1 hps1
  have hd2 : ps2.degree[d]? = some (p + 1) := by
    unfold PS.incrementMultiplicities at hps2
    rw [bind_eq_ok] at hps2; obtain ⟨_, _, hps2⟩ := hps2
    rw [bind_eq_ok] at hps2; obtain ⟨_, _, hps2⟩ := hps2
    rw [forEach_degree _ _ _ hps2]; exact hd1
  obtain ⟨hsl, hseg⟩ := buildList_eq_ok hsegs
  have h2 := two_le_kvNumDifferent hw
  obtain ⟨seg, hs0, hseg0⟩ := hseg 0 (by omega)
  rw [bind_eq_ok] at hseg0; obtain ⟨b, _, hseg0⟩ := hseg0
  have hz := elevateBezier_zero hp1 h1 hseg0
  -- the box
  obtain ⟨m, hm⟩ := hg.num
  have hdn : d < (npts s).length := lt_of_some (nptsOf_get hU hp)
  have hix : ixd (npts s) d = U.length - p - 1 := nptsOf_ixd hU hp
  have hpos : ∀ n ∈ npts s, 0 < n := nptsOf_pos h.knots
  have hsize := hw.size
  set k := ixd (npts s) d + m + (kvNumDifferent U1 - 1) with hk
  have hnum : s1.ph.num.modify d (fun x => x + ((kvNumDifferent U1 : ℤ) - 1)) = zl ((npts s).set d k) := by
    rw [hm, h.num, List.modify_modify_eq]
    apply modify_zl hdn
    have := kvNumDifferent_pos U1
    simp only [Function.comp, hk]
    push_cast
    rw [Nat.cast_sub this]
    push_cast; ring
  rw [hnum] at hs2
  unfold Spl.setBezierCPs at hs2
  rw [getN_eq_ok.2 hd2, ok_bind] at hs2
  dsimp only at hs2
  rw [bind_eq_ok] at hs2; obtain ⟨ph2, hph2, _⟩ := hs2
  set ns := (npts s).set d k with hns
  generalize hq0 : Phys.addCPs (_ : Phys K) _ = q0 at hph2
  have hq1 : q0.num = zl ns ∧ q0.dim = s1.ph.dim := by rw [← hq0]; exact addCPs_shape _ _
  rw [hq1.1] at hph2
  have hdl : d < ns.length := by rw [hns, List.length_set]; exact hdn
  have hnpos : ∀ n ∈ ns, 0 < n := set_pos hpos (by omega)
  have hkp : p < ixd ns d := by rw [hns, ixd_set_self hdn]; omega
  set I := (ns.map fun _ => 0).set d p with hI
  have hbox : InBox ns I := by
    have : InBox ns (ns.map fun _ => 0) := by rw [← unlin_zero]; exact unlin_inBox hnpos 0
    have := inBox_set (d := d) (n := ixd ns d) this hkp
    rwa [set_ixd hdl] at this
  have hIk : ixd I d = p := by rw [hI]; exact ixd_set_self (by simpa using hdl)
  have := upLoop_ok (ns := ns) (body := Spl.setBezierBody segs (p + 1) d) (fun k (q : Phys K) => q.dim = s1.ph.dim ∧ k ≤ lin ns I) ⟨hq1.2, Nat.zero_le _⟩ (by
    intro k hk q hq q' hb
    refine ⟨(setBezierBody_dim hb).trans hq.1, ?_⟩
    by_contra hc
    have hke : k = lin ns I := by omega
    subst hke
    rw [unlin_lin hbox] at hb
    refine setBezierBody_fails h1 hdl hbox hIk row_single ?_ hs0 ?_ hb
    · rw [hq.1, hg.dim]; exact h.dim
    · rw [hq.1]; exact hz) hph2
  have h3 := lin_lt hbox
  omega

end
end SplineLib
