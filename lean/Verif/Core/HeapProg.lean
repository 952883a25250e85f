import Verif.Core.Heap
import Verif.Core.Construct

/-!
# Facts about the caller's programs on the memory model
-/

namespace SplineLib
set_option linter.unusedSectionVars false
variable {K : Type} [LinearOrder K] [Field K]

open Heap

/-- The command names spline variable `c`. -/
def Cmd.names (c : ℕ) : Cmd K → Bool
  | .getKnotVector i _ => i == c
  | .fromGenerator i => i == c
  | .copy i => i == c
  | .call i _ => i == c
  | .subdivide i _ _ => i == c
  | _ => false

namespace Prog

/-- No dangling pointers. -/
structure WF (σ : Prog K) : Prop where
  heap : σ.heap.WF
  objs : ∀ o ∈ σ.objs, Live σ.heap o
  kvars : ∀ a ∈ σ.kvars, a < σ.heap.kvs.length

/-- Only variable `c` reaches the addresses `F`. -/
structure Private (σ : Prog K) (c : ℕ) (F : Foot) : Prop where
  own : ∃ o, σ.objs[c]? = some o ∧ HasFoot σ.heap o F
  others : ∀ i o, i ≠ c → σ.objs[i]? = some o → Apart σ.heap o F
  kvars : ∀ a ∈ σ.kvars, a ∉ F.kv

theorem Private.inRange {σ : Prog K} {c : ℕ} {F : Foot} (p : Private σ c F) (w : WF σ) : InRange σ.heap F := by
  obtain ⟨o, ho, hf⟩ := p.own
  exact hf.inRange (w.objs o (List.mem_of_getElem? ho)) w.heap

theorem lookup_mem {vars : List ℕ} : ∀ {js as : List ℕ}, lookup vars js = .ok as → ∀ a ∈ as, a ∈ vars
  | [], as, h => by cases h; simp
  | j :: js, as, h => by
    obtain ⟨a, ha, h⟩ := bind_ok h
    obtain ⟨as', has, h⟩ := bind_ok h
    cases h
    intro b hb
    rcases List.mem_cons.1 hb with rfl | hb
    · exact List.mem_of_getElem? (getN_ok ha)
    · exact lookup_mem has b hb

/-- Changing the memory without touching `F`, with new objects that are apart from `F` and new knot vector variables outside `F`. -/
theorem Private.extend {σ : Prog K} {c : ℕ} {F : Foot} (p : Private σ c F) (w : WF σ) {h : Heap K} (k : Keeps F σ.heap h)
    {os : List Obj} (ho : ∀ o ∈ os, Apart h o F) {as : List ℕ} (ha : ∀ a ∈ as, a ∉ F.kv) :
    Private ⟨h, σ.objs ++ os, σ.kvars ++ as⟩ c F := by
  obtain ⟨o, hoc, hf⟩ := p.own
  have hlt : c < σ.objs.length := (List.getElem?_eq_some_iff.1 hoc).1
  refine ⟨⟨o, by rw [List.getElem?_append_left hlt]; exact hoc, hf.keeps k⟩, ?_, ?_⟩
  · intro i o' hi ho'
    rw [List.getElem?_append] at ho'
    split at ho'
    · exact (p.others i o' hi ho').keeps (w.objs o' (List.mem_of_getElem? ho')) k
    · exact ho o' (List.mem_of_getElem? ho')
  · intro a h1
    rcases List.mem_append.1 h1 with h1 | h1
    · exact p.kvars a h1
    · exact ha a h1

theorem WF.extend {σ : Prog K} (w : WF σ) {F : Foot} {h : Heap K} (k : Keeps F σ.heap h)
    {os : List Obj} (ho : ∀ o ∈ os, Live h o) {as : List ℕ} (ha : ∀ a ∈ as, a < h.kvs.length) :
    WF ⟨h, σ.objs ++ os, σ.kvars ++ as⟩ := by
  refine ⟨k.wf w.heap, ?_, ?_⟩
  · intro o h1
    rcases List.mem_append.1 h1 with h1 | h1
    · exact (w.objs o h1).keeps k
    · exact ho o h1
  · intro a h1
    rcases List.mem_append.1 h1 with h1 | h1
    · exact (w.kvars a h1).trans_le k.lkv
    · exact ha a h1

theorem keeps_set {F : Foot} {h : Heap K} {a : ℕ} (ha : a ∉ F.kv) (U : List K) : Keeps F h ⟨h.kvs.set a U, h.pss, h.phs⟩ := by
  refine ⟨by simp, le_rfl, le_rfl, fun _ c hc => ⟨c, hc, rfl⟩, ?_, rfl, rfl, ?_⟩
  · intro i hi; exact List.getElem?_set_ne fun e => ha (by rw [e]; exact hi)
  · intro w c hc i hi
    rw [List.length_set]
    exact w c hc i hi

/-- A command that does not name `c` leaves the memory of `c` alone, and leaves `c` the only variable that reaches it. -/
theorem step_private {σ σ' : Prog K} {c : ℕ} {F : Foot} (p : Private σ c F) (w : WF σ) {cmd : Cmd K} (hn : cmd.names c = false)
    (e : σ.step cmd = .ok σ') : Keeps F σ.heap σ'.heap ∧ Private σ' c F ∧ WF σ' ∧ ∃ os, σ'.objs = σ.objs ++ os := by
  have r := p.inRange w
  -- all cases have this form
  have main : ∀ {h : Heap K} {os : List Obj} {as : List ℕ}, Keeps F σ.heap h → (∀ o ∈ os, Apart h o F ∧ Live h o) →
      (∀ a ∈ as, a ∉ F.kv ∧ a < h.kvs.length) → σ' = ⟨h, σ.objs ++ os, σ.kvars ++ as⟩ →
      Keeps F σ.heap σ'.heap ∧ Private σ' c F ∧ WF σ' ∧ ∃ os, σ'.objs = σ.objs ++ os := by
    intro h os as k ho ha e
    subst e
    exact ⟨k, p.extend w k (fun o h1 => (ho o h1).1) fun a h1 => (ha a h1).1, w.extend k (fun o h1 => (ho o h1).2) fun a h1 => (ha a h1).2,
      os, rfl⟩
  have hapart : ∀ {i o}, i ≠ c → getN σ.objs i = .ok o → Apart σ.heap o F ∧ Live σ.heap o := fun {i o} hi ho =>
    ⟨p.others i o hi (getN_ok ho), w.objs o (List.mem_of_getElem? (getN_ok ho))⟩
  cases cmd with
  | knotVector U =>
    cases e
    have k1 : Keeps F σ.heap (⟨σ.heap.kvs ++ [U], σ.heap.pss, σ.heap.phs⟩ : Heap K) := by
      have := keeps_append r (ks := [U]) (cs := []) (ps := []) (by simp)
      simpa using this
    refine main k1 (os := []) (as := [σ.heap.kvs.length]) (by simp) ?_ (by simp)
    intro a ha
    rw [List.mem_singleton] at ha
    subst ha
    exact ⟨fun h => absurd (r.1 _ h) (lt_irrefl _), by simp⟩
  | getKnotVector i d =>
    have hi : i ≠ c := by simpa [Cmd.names] using hn
    obtain ⟨o, ho, e⟩ := bind_ok e
    obtain ⟨cell, hcell, e⟩ := bind_ok e
    obtain ⟨a, ha, e⟩ := bind_ok e
    cases e
    refine main (Keeps.refl F σ.heap) (os := []) (as := [a]) (by simp) ?_ (by simp)
    intro b hb
    rw [List.mem_singleton] at hb
    subst hb
    have hm := List.mem_of_getElem? (getN_ok ha)
    exact ⟨(hapart hi ho).1.2.2 cell (getN_ok hcell) b hm, w.heap cell (List.mem_of_getElem? (getN_ok hcell)) b hm⟩
  | setKnots j U =>
    obtain ⟨a, ha, e⟩ := bind_ok e
    cases e
    exact main (keeps_set (p.kvars a (List.mem_of_getElem? (getN_ok ha))) U) (os := []) (as := []) (by simp) (by simp) (by simp)
  | construct js degree points weights =>
    obtain ⟨as, has, e⟩ := bind_ok e
    obtain ⟨⟨h, o⟩, ho, e⟩ := bind_ok e
    cases e
    obtain ⟨k, f⟩ := keeps_newSpline r ho
    refine main k (os := [o]) (as := []) ?_ (by simp) (by simp)
    intro o' h1
    rw [List.mem_singleton] at h1
    subst h1
    exact ⟨f.apart r, f.2.2.1⟩
  | generator js degree points weights =>
    obtain ⟨as, has, e⟩ := bind_ok e
    obtain ⟨⟨h, o⟩, ho, e⟩ := bind_ok e
    cases e
    have hm := lookup_mem has
    cases weights with
    | none =>
      obtain ⟨k, f⟩ := keeps_newSpline r ho
      refine main k (os := [o]) (as := []) ?_ (by simp) (by simp)
      intro o' h1
      rw [List.mem_singleton] at h1
      subst h1
      exact ⟨f.apart r, f.2.2.1⟩
    | some wt =>
      obtain ⟨ks, _, ho⟩ := bind_ok ho
      obtain ⟨ph, _, ho⟩ := bind_ok ho
      obtain ⟨ps, _, ho⟩ := bind_ok ho
      cases ho
      have k := keeps_allocShared r (as := as) (fun a ha => w.kvars a (hm a ha)) ⟨ps, ph⟩
      refine main k (os := [⟨σ.heap.pss.length, σ.heap.phs.length⟩]) (as := []) ?_ (by simp) (by simp [Heap.allocShared])
      intro o' h1
      rw [List.mem_singleton] at h1
      subst h1
      refine ⟨⟨?_, ?_, ?_⟩, by simp [Heap.allocShared], by simp [Heap.allocShared]⟩
      · exact fun e => absurd r.2.1 (by dsimp only at e; omega)
      · exact fun e => absurd r.2.2 (by dsimp only at e; omega)
      · intro cell hcell a ha
        simp only [Heap.allocShared] at hcell
        rw [List.getElem?_append_right le_rfl] at hcell
        simp only [Nat.sub_self, List.getElem?_cons_zero, Option.some.injEq] at hcell
        subst hcell
        exact p.kvars a (hm a ha)
  | fromGenerator i =>
    have hi : i ≠ c := by simpa [Cmd.names] using hn
    obtain ⟨o, ho, e⟩ := bind_ok e
    cases e
    refine main (Keeps.refl F σ.heap) (os := [o]) (as := []) ?_ (by simp) (by simp)
    intro o' h1
    rw [List.mem_singleton] at h1
    subst h1
    exact hapart hi ho
  | copy i =>
    obtain ⟨o, ho, e⟩ := bind_ok e
    obtain ⟨⟨h, o'⟩, ho', e⟩ := bind_ok e
    cases e
    obtain ⟨k, f⟩ := keeps_copy r ho'
    refine main k (os := [o']) (as := []) ?_ (by simp) (by simp)
    intro o2 h1
    rw [List.mem_singleton] at h1
    subst h1
    exact ⟨f.apart r, f.2.2.1⟩
  | call i f =>
    have hi : i ≠ c := by simpa [Cmd.names] using hn
    obtain ⟨o, ho, e⟩ := bind_ok e
    obtain ⟨h, hh, e⟩ := bind_ok e
    cases e
    exact main (keeps_call (hapart hi ho).1 hh) (os := []) (as := []) (by simp) (by simp) (by simp)
  | subdivide i x d =>
    have hi : i ≠ c := by simpa [Cmd.names] using hn
    obtain ⟨o, ho, e⟩ := bind_ok e
    obtain ⟨⟨h, l, rr⟩, hh, e⟩ := bind_ok e
    cases e
    obtain ⟨k, f1, f2⟩ := keeps_subdivide r (hapart hi ho).1 hh
    refine main k (os := [l, rr]) (as := []) ?_ (by simp) (by simp)
    intro o2 h1
    rcases List.mem_cons.1 h1 with rfl | h1
    · exact ⟨f1.apart r, f1.2.2.1⟩
    · rw [List.mem_singleton] at h1
      subst h1
      exact ⟨f2.apart r, f2.2.2.1⟩

/-- The same variables, and memories that agree outside `F`. -/
structure Agrees (F : Foot) (σ τ : Prog K) : Prop where
  heap : Agree F σ.heap τ.heap
  objs : σ.objs = τ.objs
  kvars : σ.kvars = τ.kvars

theorem Agrees.refl (F : Foot) (σ : Prog K) : Agrees F σ σ := ⟨Agree.refl F _, rfl, rfl⟩
theorem Agrees.trans {F : Foot} {a b c : Prog K} (h : Agrees F a b) (g : Agrees F b c) : Agrees F a c :=
  ⟨h.heap.trans g.heap, h.objs.trans g.objs, h.kvars.trans g.kvars⟩

/-- A command that does not name `c` does the same on memories that only differ in the memory of `c`. -/
theorem step_agree {σ τ : Prog K} {c : ℕ} {F : Foot} (p : Private σ c F) (w : WF σ) (g : Agrees F σ τ) {cmd : Cmd K}
    (hn : cmd.names c = false) : RelM (Agrees F) (σ.step cmd) (τ.step cmd) := by
  have r := p.inRange w
  obtain ⟨h', objs', kvars'⟩ := τ
  obtain ⟨g, g2, g3⟩ := g
  simp only at g2 g3 g
  subst g2 g3
  have hapart : ∀ {i o}, i ≠ c → getN σ.objs i = .ok o → Apart σ.heap o F ∧ Live σ.heap o := fun {i o} hi ho =>
    ⟨p.others i o hi (getN_ok ho), w.objs o (List.mem_of_getElem? (getN_ok ho))⟩
  cases cmd with
  | knotVector U =>
    refine ⟨⟨by simp [g.lkv], g.lps, g.lph, fun i hi => append_congr g.lkv (g.kv i hi), g.ps, g.ph⟩, rfl, by simp [g.lkv]⟩
  | getKnotVector i d =>
    have hi : i ≠ c := by simpa [Cmd.names] using hn
    refine RelM.bind_eq rfl fun o ho => ?_
    refine RelM.bind_eq (getN_congr (g.ps _ (hapart hi ho).1.1)) fun cell _ => ?_
    refine RelM.bind_eq rfl fun a _ => ?_
    exact ⟨g, rfl, rfl⟩
  | setKnots j U =>
    refine RelM.bind_eq rfl fun a ha => ?_
    exact ⟨⟨by simp [g.lkv], g.lps, g.lph, fun i hi => set_congr g.lkv (g.kv i hi), g.ps, g.ph⟩, rfl, rfl⟩
  | construct js degree points weights =>
    refine RelM.bind_eq rfl fun as has => ?_
    refine RelM.bind (g.newSpline (fun a ha => p.kvars a (lookup_mem has a ha)) degree points weights) ?_
    rintro ⟨h1, o1⟩ ⟨h2, o2⟩ _ _ ⟨g1, e⟩
    exact ⟨g1, by simp only at e; rw [e], rfl⟩
  | generator js degree points weights =>
    refine RelM.bind_eq rfl fun as has => ?_
    refine RelM.bind (g.newGenerator (fun a ha => p.kvars a (lookup_mem has a ha)) degree points weights) ?_
    rintro ⟨h1, o1⟩ ⟨h2, o2⟩ _ _ ⟨g1, e⟩
    exact ⟨g1, by simp only at e; rw [e], rfl⟩
  | fromGenerator i =>
    refine RelM.bind_eq rfl fun o ho => ?_
    exact ⟨g, rfl, rfl⟩
  | copy i =>
    have hi : i ≠ c := by simpa [Cmd.names] using hn
    refine RelM.bind_eq rfl fun o ho => ?_
    refine RelM.bind (g.copy (hapart hi ho).1) ?_
    rintro ⟨h1, o1⟩ ⟨h2, o2⟩ _ _ ⟨g1, e⟩
    exact ⟨g1, by simp only at e; rw [e], rfl⟩
  | call i f =>
    have hi : i ≠ c := by simpa [Cmd.names] using hn
    refine RelM.bind_eq rfl fun o ho => ?_
    refine RelM.bind (g.call (hapart hi ho).1 f) ?_
    intro h1 h2 _ _ g1
    exact ⟨g1, rfl, rfl⟩
  | subdivide i x d =>
    have hi : i ≠ c := by simpa [Cmd.names] using hn
    refine RelM.bind_eq rfl fun o ho => ?_
    refine RelM.bind (g.subdivide r (hapart hi ho).1 x d) ?_
    rintro ⟨h1, o1⟩ ⟨h2, o2⟩ _ _ ⟨g1, e⟩
    exact ⟨g1, by simp only at e; rw [e], rfl⟩

theorem Private.agrees {σ τ : Prog K} {c : ℕ} {F : Foot} (p : Private σ c F) (g : Agrees F σ τ)
    (hf : ∀ o, σ.objs[c]? = some o → HasFoot τ.heap o F) : Private τ c F := by
  obtain ⟨o, ho, _⟩ := p.own
  refine ⟨⟨o, by rw [← g.objs]; exact ho, hf o ho⟩, ?_, ?_⟩
  · intro i o' hi ho'
    rw [← g.objs] at ho'
    exact (p.others i o' hi ho').agree g.heap
  · rw [← g.kvars]; exact p.kvars

/-- A call on `c` changes nothing else. -/
theorem step_own {σ σ' : Prog K} {c : ℕ} {F : Foot} (p : Private σ c F) (w : WF σ) {f : Spl K → M (Spl K)}
    (e : σ.step (.call c f) = .ok σ') :
    Agrees F σ' σ ∧ Private σ' c F ∧ WF σ' ∧ ∃ s s', σ.view c = .ok s ∧ f s = .ok s' ∧ σ'.view c = .ok s' := by
  obtain ⟨o, ho, e⟩ := bind_ok e
  obtain ⟨h, hh, e⟩ := bind_ok e
  cases e
  obtain ⟨o', ho', hf⟩ := p.own
  rw [getN_ok ho] at ho'
  cases ho'
  obtain ⟨g, hf', hw⟩ := agree_call hf hh
  have ga : Agrees F (⟨h, σ.objs, σ.kvars⟩ : Prog K) σ := ⟨g, rfl, rfl⟩
  obtain ⟨s, s', v1, v2, v3⟩ := view_call w.heap hh
  refine ⟨ga, ?_, ⟨hw w.heap, ?_, ?_⟩, s, s', ?_, v2, ?_⟩
  · refine p.agrees ⟨g.symm, rfl, rfl⟩ ?_
    intro o2 ho2
    rw [getN_ok ho] at ho2
    cases ho2
    exact hf'
  · intro o2 h2
    exact ⟨by rw [g.lps]; exact (w.objs o2 h2).1, by rw [g.lph]; exact (w.objs o2 h2).2⟩
  · intro a ha; rw [g.lkv]; exact w.kvars a ha
  · simp only [Prog.view, ho, ok_bind, v1]
  · simp only [Prog.view, ho, ok_bind, v3]

theorem run_agree {c : ℕ} {F : Foot} : ∀ {prog : List (Cmd K)} {σ τ : Prog K}, Private σ c F → WF σ → Agrees F σ τ →
    (∀ cmd ∈ prog, cmd.names c = false) → RelM (Agrees F) (run prog σ) (run prog τ)
  | [], _, _, _, _, g, _ => g
  | cmd :: prog, σ, τ, p, w, g, hn => by
    refine RelM.bind (step_agree p w g (hn cmd (by simp))) ?_
    intro σ' τ' e _ g'
    obtain ⟨_, p', w', _⟩ := step_private p w (hn cmd (by simp)) e
    exact run_agree p' w' g' fun x hx => hn x (by simp [hx])

theorem Private.view_eq {σ τ : Prog K} {c : ℕ} {F : Foot} (p : Private σ c F) (g : Agrees F σ τ) {i : ℕ} (hi : i ≠ c) :
    σ.view i = τ.view i := by
  unfold Prog.view
  rw [g.objs]
  cases ho : getN τ.objs i with
  | error e => rfl
  | ok o =>
    simp only [ok_bind]
    exact g.heap.view (p.others i o hi (by rw [g.objs]; exact getN_ok ho))

theorem step_view {σ σ' : Prog K} {c : ℕ} {F : Foot} (p : Private σ c F) (w : WF σ) {cmd : Cmd K} (hn : cmd.names c = false)
    (e : σ.step cmd = .ok σ') : σ'.view c = σ.view c := by
  obtain ⟨k, p', _, os, ho⟩ := step_private p w hn e
  obtain ⟨o, hoc, hf⟩ := p.own
  have hlt : c < σ.objs.length := (List.getElem?_eq_some_iff.1 hoc).1
  have h1 : getN σ.objs c = .ok o := by simp only [getN, hoc]
  have h2 : getN σ'.objs c = .ok o := by
    have : σ'.objs[c]? = some o := by rw [ho, List.getElem?_append_left hlt]; exact hoc
    simp only [getN, this]
  simp only [Prog.view, h1, h2, ok_bind]
  exact k.view hf

/-- Member function calls one after the other. -/
def applyAll : List (Spl K → M (Spl K)) → Spl K → M (Spl K)
  | [], s => .ok s
  | f :: fs, s => do
    let s' ← f s
    applyAll fs s'

/-- The calls of a program on variable `c`. -/
def callsOn (c : ℕ) : List (Cmd K) → List (Spl K → M (Spl K))
  | [] => []
  | .call i f :: prog => if i = c then f :: callsOn c prog else callsOn c prog
  | _ :: prog => callsOn c prog

/-- Variable `c` is named only by member function calls. -/
def OnlyCalls (c : ℕ) (cmd : Cmd K) : Prop := cmd.names c = false ∨ ∃ f, cmd = .call c f

theorem callsOn_other {c : ℕ} {cmd : Cmd K} (h : cmd.names c = false) (prog : List (Cmd K)) : callsOn c (cmd :: prog) = callsOn c prog := by
  cases cmd with
  | call i f =>
    have : i ≠ c := by simpa [Cmd.names] using h
    simp [callsOn, this]
  | _ => rfl

theorem run_noninterference {c : ℕ} {F : Foot} : ∀ {prog : List (Cmd K)} {σ τ : Prog K}, Private σ c F → WF σ →
    (∀ cmd ∈ prog, OnlyCalls c cmd) → run prog σ = .ok τ →
    Private τ c F ∧ WF τ ∧ (∀ s, σ.view c = .ok s → ∃ s', applyAll (callsOn c prog) s = .ok s' ∧ τ.view c = .ok s') ∧
    ∃ τ', run (prog.filter fun cmd => !cmd.names c) σ = .ok τ' ∧ Agrees F τ τ'
  | [], σ, τ, p, w, _, e => by
    cases e
    exact ⟨p, w, fun s hs => ⟨s, rfl, hs⟩, σ, rfl, Agrees.refl F σ⟩
  | cmd :: prog, σ, τ, p, w, hn, e => by
    obtain ⟨σ1, e1, e2⟩ := bind_ok e
    have hn' : ∀ x ∈ prog, OnlyCalls c x := fun x hx => hn x (by simp [hx])
    rcases hn cmd (by simp) with hf | ⟨f, rfl⟩
    · obtain ⟨_, p1, w1, _⟩ := step_private p w hf e1
      obtain ⟨a1, a2, a3, τ', a4, a5⟩ := run_noninterference p1 w1 hn' e2
      refine ⟨a1, a2, ?_, τ', ?_, a5⟩
      · intro s hs
        rw [callsOn_other hf]
        exact a3 s (by rw [step_view p w hf e1]; exact hs)
      · rw [List.filter_cons, if_pos (by simp [hf])]
        simp only [run, e1, ok_bind, a4]
    · obtain ⟨g1, p1, w1, s0, s1, v1, v2, v3⟩ := step_own p w e1
      obtain ⟨a1, a2, a3, τ', a4, a5⟩ := run_noninterference p1 w1 hn' e2
      have hrel := run_agree (prog := prog.filter fun cmd => !cmd.names c) p1 w1 g1
        (fun x hx => by simpa using (List.mem_filter.1 hx).2)
      obtain ⟨τ2, b1, b2⟩ := hrel.ok a4
      refine ⟨a1, a2, ?_, τ2, ?_, a5.trans b2⟩
      · intro s hs
        rw [v1] at hs
        cases hs
        obtain ⟨s', c1, c2⟩ := a3 s1 v3
        exact ⟨s', by simp only [callsOn, if_true, applyAll, v2, ok_bind, c1], c2⟩
      · rw [List.filter_cons, if_neg (by simp [Cmd.names])]
        exact b1


end Prog
end SplineLib
