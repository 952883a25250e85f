import Verif.Core.HeapProg

/-!
# Every program keeps the memory free of dangling pointers; new objects are private
-/

namespace SplineLib
set_option linter.unusedSectionVars false
variable {K : Type}

namespace Heap

/-- The memory has grown, and no pointer of a parameter space has changed. -/
structure Grow (h h' : Heap K) : Prop where
  lkv : h.kvs.length ≤ h'.kvs.length
  lps : h.pss.length ≤ h'.pss.length
  lph : h.phs.length ≤ h'.phs.length
  ptr : ∀ (a : ℕ) (c : PSCell K), h.pss[a]? = some c → ∃ c' : PSCell K, h'.pss[a]? = some c' ∧ c'.knots = c.knots
  wf : h.WF → h'.WF

theorem Grow.refl (h : Heap K) : Grow h h := ⟨le_rfl, le_rfl, le_rfl, fun _ c hc => ⟨c, hc, rfl⟩, id⟩

theorem Grow.trans {a b c : Heap K} (h : Grow a b) (g : Grow b c) : Grow a c where
  lkv := h.lkv.trans g.lkv
  lps := h.lps.trans g.lps
  lph := h.lph.trans g.lph
  ptr := fun i x hx => by
    obtain ⟨y, hy, e⟩ := h.ptr i x hx
    obtain ⟨z, hz, e'⟩ := g.ptr i y hy
    exact ⟨z, hz, e'.trans e⟩
  wf := fun w => g.wf (h.wf w)

theorem Live.grow {h h' : Heap K} {o : Obj} (r : Live h o) (k : Grow h h') : Live h' o := ⟨r.1.trans_le k.lps, r.2.trans_le k.lph⟩

theorem Fresh.mono' {a b c : Heap K} {o : Obj} (f : Fresh b c o) (k : Grow a b) : Fresh a c o :=
  ⟨k.lps.trans f.1, k.lph.trans f.2.1, f.2.2.1, fun x hx i hi => k.lkv.trans (f.2.2.2 x hx i hi)⟩

theorem Fresh.grow {a b c : Heap K} {o : Obj} (f : Fresh a b o) (k : Grow b c) : Fresh a c o := by
  refine ⟨f.1, f.2.1, f.2.2.1.grow k, fun x hx i hi => ?_⟩
  obtain ⟨c', hc', e⟩ := k.ptr o.ps _ (List.getElem?_eq_getElem f.2.2.1.1)
  rw [hx] at hc'
  obtain rfl := Option.some.inj hc'
  exact f.2.2.2 _ (List.getElem?_eq_getElem f.2.2.1.1) i (by rw [← e]; exact hi)

theorem grow_append (h : Heap K) {ks : List (List K)} {cs : List (PSCell K)} {ps : List (Phys K)}
    (hc : h.WF → ∀ c ∈ cs, ∀ a ∈ c.knots, a < h.kvs.length + ks.length) : Grow h ⟨h.kvs ++ ks, h.pss ++ cs, h.phs ++ ps⟩ := by
  refine ⟨by simp, by simp, by simp, ?_, ?_⟩
  · intro a c hac
    have hl : a < h.pss.length := (List.getElem?_eq_some_iff.1 hac).1
    exact ⟨c, by rw [append_get hl]; exact hac, rfl⟩
  · intro w c hm a ha
    simp only [List.mem_append] at hm
    simp only [List.length_append]
    rcases hm with hm | hm
    · have := w c hm a ha; omega
    · exact hc w c hm a ha

theorem grow_alloc (h : Heap K) (s : Spl K) : Grow h (h.alloc s).1 ∧ Fresh h (h.alloc s).1 (h.alloc s).2 := by
  constructor
  · refine grow_append h ?_
    intro _ c hc a ha
    rw [List.mem_singleton] at hc
    subst hc
    have := List.mem_range'_1.1 ha
    omega
  · refine ⟨le_rfl, le_rfl, ⟨by simp [Heap.alloc], by simp [Heap.alloc]⟩, ?_⟩
    intro c hc a ha
    simp only [Heap.alloc] at hc
    rw [List.getElem?_append_right le_rfl] at hc
    simp only [Nat.sub_self, List.getElem?_cons_zero, Option.some.injEq] at hc
    subst hc
    exact (List.mem_range'_1.1 ha).1

variable [LinearOrder K] [Field K]

theorem grow_newSpline {h : Heap K} {as degree : List ℕ} {points : List (List K)} {weights : Option (List K)}
    {x : Heap K × Obj} (e : h.newSpline as degree points weights = .ok x) : Grow h x.1 ∧ Fresh h x.1 x.2 := by
  obtain ⟨ks, _, e⟩ := bind_ok e
  obtain ⟨s, _, e⟩ := bind_ok e
  cases e
  exact grow_alloc h s

theorem grow_copy {h : Heap K} {o : Obj} {x : Heap K × Obj} (e : h.copy o = .ok x) : Grow h x.1 ∧ Fresh h x.1 x.2 := by
  obtain ⟨ks, _, e⟩ := bind_ok e
  obtain ⟨s, _, e⟩ := bind_ok e
  cases e
  exact grow_alloc h s

theorem grow_call {h : Heap K} {o : Obj} {f : Spl K → M (Spl K)} {h' : Heap K} (e : h.call o f = .ok h') : Grow h h' := by
  obtain ⟨c, hc, e⟩ := bind_ok e
  obtain ⟨s, _, e⟩ := bind_ok e
  obtain ⟨s', _, e⟩ := bind_ok e
  have hc := getN_ok hc
  split at e
  · cases e
    refine ⟨by simp [writeAll_length], by simp, by simp, ?_, ?_⟩
    · intro i x hx
      simp only [List.getElem?_set]
      by_cases hi : o.ps = i
      · subst hi
        rw [hc] at hx
        cases hx
        have := (List.getElem?_eq_some_iff.1 hc).1
        simp [this]
      · simp [hi, hx]
    · intro w x hx i hi
      rw [writeAll_length]
      rcases List.mem_or_eq_of_mem_set hx with hx | rfl
      · exact w x hx i hi
      · exact w c (List.mem_of_getElem? hc) i hi
  · cases e

theorem grow_subdividePart {h : Heap K} {o : Obj} {knots : List (List K)} {first : ℤ} {d : ℕ}
    {x : Heap K × Obj × ℤ} (e : h.subdividePart o knots first d = .ok x) : Grow h x.1 ∧ Fresh h x.1 x.2.1 := by
  obtain ⟨c, _, e⟩ := bind_ok e
  obtain ⟨s, _, e⟩ := bind_ok e
  obtain ⟨U, _, e⟩ := bind_ok e
  obtain ⟨p, _, e⟩ := bind_ok e
  obtain ⟨points, _, e⟩ := bind_ok e
  obtain ⟨weights, _, e⟩ := bind_ok e
  obtain ⟨⟨h2, r2⟩, e2, e⟩ := bind_ok e
  obtain ⟨⟨h3, r3⟩, e3, e⟩ := bind_ok e
  cases e
  have k1 : Grow h (⟨h.kvs ++ [U], h.pss, h.phs⟩ : Heap K) := by
    have := grow_append h (ks := [U]) (cs := []) (ps := []) (by simp)
    simpa using this
  obtain ⟨k2, f2⟩ := grow_newSpline e2
  obtain ⟨k3, f3⟩ := grow_copy e3
  exact ⟨(k1.trans k2).trans k3, f3.mono' (k1.trans k2)⟩

theorem grow_subdivide {h : Heap K} {o : Obj} {t : K} {d : ℕ} {x : Heap K × Obj × Obj} (e : h.subdivide o t d = .ok x) :
    Grow h x.1 ∧ Fresh h x.1 x.2.1 ∧ ∃ h2, Grow h h2 ∧ Live h2 x.2.1 ∧ Grow h2 x.1 ∧ Fresh h2 x.1 x.2.2 ∧
      (∀ c, h2.pss[x.2.1.ps]? = some c → h.WF → ∀ a ∈ c.knots, a < h2.kvs.length) := by
  obtain ⟨s, _, e⟩ := bind_ok e
  obtain ⟨U, _, e⟩ := bind_ok e
  obtain ⟨p, _, e⟩ := bind_ok e
  obtain ⟨h1, e1, e⟩ := bind_ok e
  obtain ⟨s1, _, e⟩ := bind_ok e
  obtain ⟨⟨kl, kr⟩, _, e⟩ := bind_ok e
  obtain ⟨⟨h2, l, len⟩, e2, e⟩ := bind_ok e
  obtain ⟨⟨h3, r3, len3⟩, e3, e⟩ := bind_ok e
  cases e
  have k1 := grow_call e1
  obtain ⟨k2, f2⟩ := grow_subdividePart e2
  obtain ⟨k3, f3⟩ := grow_subdividePart e3
  exact ⟨(k1.trans k2).trans k3, (f2.mono' k1).grow k3, h2, k1.trans k2, f2.2.2.1, k3, f3,
    fun c hc w a ha => (k1.trans k2).wf w c (List.mem_of_getElem? hc) a ha⟩

/-- The addresses of an object. -/
def footOf (h : Heap K) (o : Obj) : Foot :=
  ⟨(h.pss[o.ps]?.map PSCell.knots).getD [], o.ps, o.ph⟩

theorem hasFoot_footOf {h : Heap K} {o : Obj} (l : Live h o) : HasFoot h o (footOf h o) := by
  refine ⟨rfl, rfl, h.pss[o.ps]'l.1, List.getElem?_eq_getElem l.1, ?_⟩
  simp [footOf, List.getElem?_eq_getElem l.1]

/-- An object that existed before is apart from a new one. -/
theorem Fresh.old_apart {h h' : Heap K} (w : h.WF) (g : Grow h h') {o : Obj} (f : Fresh h h' o) {o' : Obj} (l : Live h o') :
    Apart h' o' (footOf h' o) := by
  refine ⟨?_, ?_, ?_⟩
  · have := f.1; have := l.1; simp only [footOf]; omega
  · have := f.2.1; have := l.2; simp only [footOf]; omega
  · intro c hc a ha hm
    obtain ⟨c', hc', e⟩ := g.ptr _ _ (List.getElem?_eq_getElem l.1)
    rw [hc] at hc'
    cases hc'
    have h1 := w _ (List.getElem_mem l.1) a (by rw [← e]; exact ha)
    simp only [footOf, List.getElem?_eq_getElem f.2.2.1.1, Option.map_some, Option.getD_some] at hm
    have h2 := f.2.2.2 _ (List.getElem?_eq_getElem f.2.2.1.1) a hm
    omega

/-- A new object is apart from one that existed before. -/
theorem Fresh.new_apart {h h' : Heap K} (w : h.WF) (g : Grow h h') {o : Obj} (f : Fresh h h' o) {o' : Obj} (l : Live h o') :
    Apart h' o (footOf h' o') := by
  refine ⟨?_, ?_, ?_⟩
  · have := f.1; have := l.1; simp only [footOf]; omega
  · have := f.2.1; have := l.2; simp only [footOf]; omega
  · intro c hc a ha hm
    have h2 := f.2.2.2 c hc a ha
    obtain ⟨c', hc', e⟩ := g.ptr _ _ (List.getElem?_eq_getElem l.1)
    simp only [footOf, hc', Option.map_some, Option.getD_some, e] at hm
    have h1 := w _ (List.getElem_mem l.1) a hm
    omega

theorem Fresh.kv_apart {h h' : Heap K} {o : Obj} (f : Fresh h h' o) {a : ℕ} (ha : a < h.kvs.length) : a ∉ (footOf h' o).kv := by
  intro hm
  simp only [footOf, List.getElem?_eq_getElem f.2.2.1.1, Option.map_some, Option.getD_some] at hm
  have h2 := f.2.2.2 _ (List.getElem?_eq_getElem f.2.2.1.1) a hm
  omega

end Heap

namespace Prog
open Heap
variable [LinearOrder K] [Field K]

theorem WF.grow {σ : Prog K} (w : WF σ) {h : Heap K} (k : Grow σ.heap h) {os : List Obj} (ho : ∀ o ∈ os, Live h o) {as : List ℕ}
    (ha : ∀ a ∈ as, a < h.kvs.length) : WF ⟨h, σ.objs ++ os, σ.kvars ++ as⟩ := by
  refine ⟨k.wf w.heap, ?_, ?_⟩
  · intro o h1
    rcases List.mem_append.1 h1 with h1 | h1
    · exact (w.objs o h1).grow k
    · exact ho o h1
  · intro a h1
    rcases List.mem_append.1 h1 with h1 | h1
    · exact (w.kvars a h1).trans_le k.lkv
    · exact ha a h1

theorem step_wf {σ σ' : Prog K} (w : WF σ) {cmd : Cmd K} (e : σ.step cmd = .ok σ') : WF σ' := by
  have main : ∀ {h : Heap K} {os : List Obj} {as : List ℕ}, Grow σ.heap h → (∀ o ∈ os, Live h o) →
      (∀ a ∈ as, a < h.kvs.length) → σ' = ⟨h, σ.objs ++ os, σ.kvars ++ as⟩ → WF σ' := by
    intro h os as k ho ha e
    subst e
    exact w.grow k ho ha
  cases cmd with
  | knotVector U =>
    cases e
    have k1 : Grow σ.heap (⟨σ.heap.kvs ++ [U], σ.heap.pss, σ.heap.phs⟩ : Heap K) := by
      have := grow_append σ.heap (ks := [U]) (cs := []) (ps := []) (by simp)
      simpa using this
    exact main k1 (os := []) (as := [σ.heap.kvs.length]) (by simp) (by simp) (by simp)
  | getKnotVector i d =>
    obtain ⟨o, ho, e⟩ := bind_ok e
    obtain ⟨cell, hcell, e⟩ := bind_ok e
    obtain ⟨a, ha, e⟩ := bind_ok e
    cases e
    refine main (Grow.refl σ.heap) (os := []) (as := [a]) (by simp) ?_ (by simp)
    intro b hb
    rw [List.mem_singleton] at hb
    subst hb
    exact w.heap cell (List.mem_of_getElem? (getN_ok hcell)) b (List.mem_of_getElem? (getN_ok ha))
  | setKnots j U =>
    obtain ⟨a, ha, e⟩ := bind_ok e
    cases e
    refine main (h := ⟨σ.heap.kvs.set a U, σ.heap.pss, σ.heap.phs⟩) ?_ (os := []) (as := []) (by simp) (by simp) (by simp)
    exact ⟨by simp, le_rfl, le_rfl, fun _ c hc => ⟨c, hc, rfl⟩, fun w c hc i hi => by rw [List.length_set]; exact w c hc i hi⟩
  | construct js degree points weights =>
    obtain ⟨as, has, e⟩ := bind_ok e
    obtain ⟨⟨h, o⟩, ho, e⟩ := bind_ok e
    cases e
    obtain ⟨k, f⟩ := grow_newSpline ho
    exact main k (os := [o]) (as := []) (by simpa using f.2.2.1) (by simp) (by simp)
  | generator js degree points weights =>
    obtain ⟨as, has, e⟩ := bind_ok e
    obtain ⟨⟨h, o⟩, ho, e⟩ := bind_ok e
    cases e
    have hm := lookup_mem has
    cases weights with
    | none =>
      obtain ⟨k, f⟩ := grow_newSpline ho
      exact main k (os := [o]) (as := []) (by simpa using f.2.2.1) (by simp) (by simp)
    | some wt =>
      obtain ⟨ks, _, ho⟩ := bind_ok ho
      obtain ⟨ph, _, ho⟩ := bind_ok ho
      obtain ⟨ps, _, ho⟩ := bind_ok ho
      cases ho
      have k : Grow σ.heap (σ.heap.allocShared as ⟨ps, ph⟩).1 := by
        have := grow_append σ.heap (ks := []) (cs := [⟨as, ps.degree, ps.basis⟩]) (ps := [ph]) (by
          intro _ c hc a h2
          rw [List.mem_singleton] at hc
          subst hc
          exact w.kvars a (hm a h2))
        simpa [Heap.allocShared] using this
      refine main k (os := [⟨σ.heap.pss.length, σ.heap.phs.length⟩]) (as := []) ?_ (by simp) (by simp [Heap.allocShared])
      intro o' h1
      rw [List.mem_singleton] at h1
      subst h1
      exact ⟨by simp [Heap.allocShared], by simp [Heap.allocShared]⟩
  | fromGenerator i =>
    obtain ⟨o, ho, e⟩ := bind_ok e
    cases e
    refine main (Grow.refl σ.heap) (os := [o]) (as := []) ?_ (by simp) (by simp)
    intro o' h1
    rw [List.mem_singleton] at h1
    subst h1
    exact w.objs o' (List.mem_of_getElem? (getN_ok ho))
  | copy i =>
    obtain ⟨o, ho, e⟩ := bind_ok e
    obtain ⟨⟨h, o'⟩, ho', e⟩ := bind_ok e
    cases e
    obtain ⟨k, f⟩ := grow_copy ho'
    exact main k (os := [o']) (as := []) (by simpa using f.2.2.1) (by simp) (by simp)
  | call i f =>
    obtain ⟨o, ho, e⟩ := bind_ok e
    obtain ⟨h, hh, e⟩ := bind_ok e
    cases e
    exact main (grow_call hh) (os := []) (as := []) (by simp) (by simp) (by simp)
  | subdivide i x d =>
    obtain ⟨o, ho, e⟩ := bind_ok e
    obtain ⟨⟨h, l, rr⟩, hh, e⟩ := bind_ok e
    cases e
    obtain ⟨k, f1, h2, _, _, _, f2, _⟩ := grow_subdivide hh
    refine main k (os := [l, rr]) (as := []) ?_ (by simp) (by simp)
    intro o2 h1
    rcases List.mem_cons.1 h1 with rfl | h1
    · exact f1.2.2.1
    · rw [List.mem_singleton] at h1
      subst h1
      exact f2.2.2.1

theorem run_wf : ∀ {prog : List (Cmd K)} {σ τ : Prog K}, WF σ → run prog σ = .ok τ → WF τ
  | [], _, _, w, e => by cases e; exact w
  | cmd :: prog, σ, τ, w, e => by
    obtain ⟨σ1, e1, e2⟩ := bind_ok e
    exact run_wf (step_wf w e1) e2

/-- A single new object is private to its variable. -/
theorem private_new {σ : Prog K} (w : WF σ) {h : Heap K} {o : Obj} (g : Grow σ.heap h) (f : Fresh σ.heap h o) :
    Private ⟨h, σ.objs ++ [o], σ.kvars⟩ σ.objs.length (footOf h o) := by
  refine ⟨⟨o, by simp, hasFoot_footOf f.2.2.1⟩, ?_, fun a ha => f.kv_apart (w.kvars a ha)⟩
  intro i o' hi ho'
  rw [List.getElem?_append] at ho'
  split at ho'
  · exact f.old_apart w.heap g (w.objs o' (List.mem_of_getElem? ho'))
  · rename_i hlt
    have : i - σ.objs.length ≠ 0 := by omega
    rw [List.getElem?_singleton, if_neg this] at ho'
    cases ho'

/-- What the old objects hold is not changed by growing the memory next to them. -/
theorem view_old {h h' : Heap K} {o : Obj} (k : Keeps (footOf h o) h h') (l : Live h o) : h'.view o = h.view o :=
  k.view (hasFoot_footOf l)

theorem inRange_footOf {h : Heap K} (w : h.WF) {o : Obj} (l : Live h o) : InRange h (footOf h o) :=
  (hasFoot_footOf l).inRange l w

end Prog
end SplineLib
