import Verif.Model.Heap
import Verif.Core.Loops

/-!
# Facts about the memory model
-/

namespace SplineLib
set_option linter.unusedSectionVars false
variable {K : Type}

namespace Heap

/-- No dangling pointers to knot vectors. -/
def WF (h : Heap K) : Prop := ∀ c ∈ h.pss, ∀ a ∈ c.knots, a < h.kvs.length

/-- The object's pointers are not dangling. -/
def Live (h : Heap K) (o : Obj) : Prop := o.ps < h.pss.length ∧ o.ph < h.phs.length

/-- Addresses that belong to one object. -/
structure Foot where
  kv : List ℕ
  ps : ℕ
  ph : ℕ

/-- `F` are the addresses that the object reaches. -/
def HasFoot (h : Heap K) (o : Obj) (F : Foot) : Prop :=
  o.ps = F.ps ∧ o.ph = F.ph ∧ ∃ c, h.pss[o.ps]? = some c ∧ c.knots = F.kv

/-- The object reaches nothing in `F`. -/
def Apart (h : Heap K) (o : Obj) (F : Foot) : Prop :=
  o.ps ≠ F.ps ∧ o.ph ≠ F.ph ∧ ∀ c, h.pss[o.ps]? = some c → ∀ a ∈ c.knots, a ∉ F.kv

/-- All addresses of `F` exist. -/
def InRange (h : Heap K) (F : Foot) : Prop := (∀ a ∈ F.kv, a < h.kvs.length) ∧ F.ps < h.pss.length ∧ F.ph < h.phs.length

/-- The memory has grown, no pointer of a parameter space has changed, and the addresses of `F` hold what they held. -/
structure Keeps (F : Foot) (h h' : Heap K) : Prop where
  lkv : h.kvs.length ≤ h'.kvs.length
  lps : h.pss.length ≤ h'.pss.length
  lph : h.phs.length ≤ h'.phs.length
  ptr : ∀ (a : ℕ) (c : PSCell K), h.pss[a]? = some c → ∃ c' : PSCell K, h'.pss[a]? = some c' ∧ c'.knots = c.knots
  skv : ∀ a ∈ F.kv, h'.kvs[a]? = h.kvs[a]?
  sps : h'.pss[F.ps]? = h.pss[F.ps]?
  sph : h'.phs[F.ph]? = h.phs[F.ph]?
  wf : h.WF → h'.WF

theorem Keeps.refl (F : Foot) (h : Heap K) : Keeps F h h :=
  ⟨le_rfl, le_rfl, le_rfl, fun _ c hc => ⟨c, hc, rfl⟩, fun _ _ => rfl, rfl, rfl, id⟩

theorem Keeps.trans {F : Foot} {a b c : Heap K} (h : Keeps F a b) (g : Keeps F b c) : Keeps F a c where
  lkv := h.lkv.trans g.lkv
  lps := h.lps.trans g.lps
  lph := h.lph.trans g.lph
  ptr := fun i x hx => by
    obtain ⟨y, hy, e⟩ := h.ptr i x hx
    obtain ⟨z, hz, e'⟩ := g.ptr i y hy
    exact ⟨z, hz, e'.trans e⟩
  skv := fun i hi => (g.skv i hi).trans (h.skv i hi)
  sps := g.sps.trans h.sps
  sph := g.sph.trans h.sph
  wf := fun w => g.wf (h.wf w)

theorem InRange.keeps {F G : Foot} {h h' : Heap K} (r : InRange h F) (k : Keeps G h h') : InRange h' F :=
  ⟨fun a ha => (r.1 a ha).trans_le k.lkv, r.2.1.trans_le k.lps, r.2.2.trans_le k.lph⟩

theorem Live.keeps {G : Foot} {h h' : Heap K} {o : Obj} (r : Live h o) (k : Keeps G h h') : Live h' o :=
  ⟨r.1.trans_le k.lps, r.2.trans_le k.lph⟩

theorem Apart.keeps {F G : Foot} {h h' : Heap K} {o : Obj} (a : Apart h o F) (l : Live h o) (k : Keeps G h h') : Apart h' o F := by
  refine ⟨a.1, a.2.1, fun c hc x hx => ?_⟩
  obtain ⟨c', hc', e⟩ := k.ptr o.ps _ (List.getElem?_eq_getElem l.1)
  rw [hc] at hc'
  obtain rfl := Option.some.inj hc'
  exact a.2.2 _ (List.getElem?_eq_getElem l.1) x (by rw [← e]; exact hx)

theorem HasFoot.keeps {F G : Foot} {h h' : Heap K} {o : Obj} (a : HasFoot h o F) (k : Keeps G h h') : HasFoot h' o F := by
  obtain ⟨e1, e2, c, hc, e3⟩ := a
  obtain ⟨c', hc', e4⟩ := k.ptr _ _ hc
  exact ⟨e1, e2, c', hc', e4.trans e3⟩

theorem HasFoot.inRange {F : Foot} {h : Heap K} {o : Obj} (a : HasFoot h o F) (l : Live h o) (w : h.WF) : InRange h F := by
  obtain ⟨e1, e2, c, hc, e3⟩ := a
  refine ⟨fun x hx => w c (List.mem_of_getElem? hc) x (by rw [e3]; exact hx), e1 ▸ l.1, e2 ▸ l.2⟩

/-- The object's addresses are new. -/
def Fresh (h h' : Heap K) (o : Obj) : Prop :=
  h.pss.length ≤ o.ps ∧ h.phs.length ≤ o.ph ∧ Live h' o ∧ ∀ c, h'.pss[o.ps]? = some c → ∀ a ∈ c.knots, h.kvs.length ≤ a

theorem Fresh.apart {F : Foot} {h h' : Heap K} {o : Obj} (f : Fresh h h' o) (r : InRange h F) : Apart h' o F := by
  refine ⟨?_, ?_, fun c hc a ha hf => ?_⟩
  · have := f.1; have := r.2.1; omega
  · have := f.2.1; have := r.2.2; omega
  · have := f.2.2.2 c hc a ha; have := r.1 a hf; omega

theorem Fresh.mono {F : Foot} {a b c : Heap K} {o : Obj} (f : Fresh b c o) (k : Keeps F a b) : Fresh a c o :=
  ⟨k.lps.trans f.1, k.lph.trans f.2.1, f.2.2.1, fun x hx i hi => k.lkv.trans (f.2.2.2 x hx i hi)⟩

theorem Fresh.keeps {F : Foot} {a b c : Heap K} {o : Obj} (f : Fresh a b o) (k : Keeps F b c) : Fresh a c o := by
  refine ⟨f.1, f.2.1, f.2.2.1.keeps k, fun x hx i hi => ?_⟩
  obtain ⟨c', hc', e⟩ := k.ptr o.ps _ (List.getElem?_eq_getElem f.2.2.1.1)
  rw [hx] at hc'
  obtain rfl := Option.some.inj hc'
  exact f.2.2.2 _ (List.getElem?_eq_getElem f.2.2.1.1) i (by rw [← e]; exact hi)

/-! ### Reading -/

theorem getN_congr {α : Type} {l l' : List α} {i : ℕ} (h : l[i]? = l'[i]?) : getN l i = getN l' i := by simp only [getN, h]

theorem readAll_congr {kvs kvs' : List (List K)} : ∀ {as : List ℕ}, (∀ a ∈ as, kvs[a]? = kvs'[a]?) → readAll kvs as = readAll kvs' as
  | [], _ => rfl
  | a :: as, h => by
    have ih : readAll kvs as = readAll kvs' as := readAll_congr fun b hb => h b (List.mem_cons_of_mem _ hb)
    simp only [readAll, getN_congr (h a (by simp)), ih]

theorem readAll_length {kvs : List (List K)} : ∀ {as : List ℕ} {Us : List (List K)}, readAll kvs as = .ok Us → Us.length = as.length
  | [], Us, h => by cases h; rfl
  | a :: as, Us, h => by
    simp only [readAll] at h
    cases h1 : getN kvs a with
    | error e => rw [h1] at h; cases h
    | ok U =>
      rw [h1, ok_bind] at h
      cases h2 : readAll kvs as with
      | error e => rw [h2] at h; cases h
      | ok Us' => rw [h2] at h; cases h; simp [readAll_length h2]

theorem readAll_range {pre : List (List K)} : ∀ {Us post : List (List K)},
    readAll (pre ++ Us ++ post) (List.range' pre.length Us.length) = .ok Us := by
  intro Us
  induction Us generalizing pre with
  | nil => intro _; rfl
  | cons U Us ih =>
    intro post
    have h1 : getN (pre ++ U :: Us ++ post) pre.length = .ok U := by
      have : (pre ++ U :: Us ++ post)[pre.length]? = some U := by simp
      simp only [getN, this]
    have h2 := ih (pre := pre ++ [U]) (post := post)
    simp only [List.length_append, List.length_cons, List.length_nil, List.append_assoc, List.cons_append, List.nil_append] at h2
    simp only [List.length_cons, List.range'_succ, readAll, h1, ok_bind]
    simp only [List.append_assoc, List.cons_append] at h2 ⊢
    rw [show pre.length + 1 = pre.length + (0 + 1) by omega, h2]
    rfl

theorem writeAll_get {a : ℕ} : ∀ {as : List ℕ} {Us kvs : List (List K)}, a ∉ as → (writeAll as Us kvs)[a]? = kvs[a]?
  | [], _, _, _ => rfl
  | _ :: _, [], _, _ => rfl
  | b :: as, U :: Us, kvs, h => by
    simp only [List.mem_cons, not_or] at h
    rw [writeAll, writeAll_get h.2, List.getElem?_set_ne (Ne.symm h.1)]

theorem writeAll_length : ∀ {as : List ℕ} {Us kvs : List (List K)}, (writeAll as Us kvs).length = kvs.length
  | [], _, _ => rfl
  | _ :: _, [], _ => rfl
  | b :: as, U :: Us, kvs => by rw [writeAll, writeAll_length, List.length_set]

theorem readAll_writeAll : ∀ {as : List ℕ} {Us kvs : List (List K)}, as.Nodup → Us.length = as.length → (∀ a ∈ as, a < kvs.length) →
    readAll (writeAll as Us kvs) as = .ok Us
  | [], [], _, _, _, _ => rfl
  | [], _ :: _, _, _, h, _ => by simp at h
  | _ :: _, [], _, _, h, _ => by simp at h
  | a :: as, U :: Us, kvs, hn, hl, hr => by
    rw [List.nodup_cons] at hn
    have h1 : getN (writeAll as Us (kvs.set a U)) a = .ok U := by
      have : (writeAll as Us (kvs.set a U))[a]? = some U := by
        rw [writeAll_get hn.1, List.getElem?_set_self (hr a (by simp))]
      simp only [getN, this]
    have h2 := readAll_writeAll (as := as) (Us := Us) (kvs := kvs.set a U) hn.2 (by simpa using hl)
      (fun b hb => by rw [List.length_set]; exact hr b (by simp [hb]))
    simp only [readAll, writeAll, h1, h2, ok_bind]
    rfl

/-! ### Agreement outside `F` -/

/-- The two memories can only differ in what the addresses of `F` hold. -/
structure Agree (F : Foot) (h h' : Heap K) : Prop where
  lkv : h.kvs.length = h'.kvs.length
  lps : h.pss.length = h'.pss.length
  lph : h.phs.length = h'.phs.length
  kv : ∀ a, a ∉ F.kv → h.kvs[a]? = h'.kvs[a]?
  ps : ∀ a, a ≠ F.ps → h.pss[a]? = h'.pss[a]?
  ph : ∀ a, a ≠ F.ph → h.phs[a]? = h'.phs[a]?

theorem Agree.refl (F : Foot) (h : Heap K) : Agree F h h := ⟨rfl, rfl, rfl, fun _ _ => rfl, fun _ _ => rfl, fun _ _ => rfl⟩

theorem Agree.symm {F : Foot} {h h' : Heap K} (a : Agree F h h') : Agree F h' h :=
  ⟨a.lkv.symm, a.lps.symm, a.lph.symm, fun i hi => (a.kv i hi).symm, fun i hi => (a.ps i hi).symm, fun i hi => (a.ph i hi).symm⟩

theorem Agree.trans {F : Foot} {a b c : Heap K} (h : Agree F a b) (g : Agree F b c) : Agree F a c :=
  ⟨h.lkv.trans g.lkv, h.lps.trans g.lps, h.lph.trans g.lph, fun i hi => (h.kv i hi).trans (g.kv i hi),
    fun i hi => (h.ps i hi).trans (g.ps i hi), fun i hi => (h.ph i hi).trans (g.ph i hi)⟩

theorem Apart.agree {F : Foot} {h h' : Heap K} {o : Obj} (a : Apart h o F) (g : Agree F h h') : Apart h' o F :=
  ⟨a.1, a.2.1, fun c hc => a.2.2 c (by rw [g.ps _ a.1]; exact hc)⟩

theorem Agree.view {F : Foot} {h h' : Heap K} (g : Agree F h h') {o : Obj} (a : Apart h o F) : h.view o = h'.view o := by
  unfold Heap.view
  rw [getN_congr (g.ps _ a.1), getN_congr (g.ph _ a.2.1)]
  cases hc : getN h'.pss o.ps with
  | error e => rfl
  | ok c =>
    simp only [ok_bind]
    have hc' : h.pss[o.ps]? = some c := by
      rw [g.ps _ a.1]
      simp only [getN] at hc
      split at hc
      · rename_i x hx; cases hc; exact hx
      · cases hc
    rw [readAll_congr fun i hi => g.kv i (a.2.2 c hc' i hi)]

theorem append_congr {α : Type} {l l' m : List α} (hl : l.length = l'.length) {a : ℕ} (h : l[a]? = l'[a]?) :
    (l ++ m)[a]? = (l' ++ m)[a]? := by
  rw [List.getElem?_append, List.getElem?_append, hl]
  split
  · exact h
  · rfl

theorem set_congr {α : Type} {l l' : List α} (hl : l.length = l'.length) {a i : ℕ} {x : α} (h : l[a]? = l'[a]?) :
    (l.set i x)[a]? = (l'.set i x)[a]? := by
  rw [List.getElem?_set, List.getElem?_set, hl]
  split
  · rfl
  · exact h

theorem writeAll_congr {a : ℕ} : ∀ {as : List ℕ} {Us l l' : List (List K)}, l.length = l'.length → l[a]? = l'[a]? →
    (writeAll as Us l)[a]? = (writeAll as Us l')[a]?
  | [], _, _, _, _, h => h
  | _ :: _, [], _, _, _, h => h
  | b :: as, U :: Us, l, l', hl, h => by
    rw [writeAll, writeAll]
    exact writeAll_congr (by simp [hl]) (set_congr hl h)

/-- Both fail in the same way, or both succeed with related results. -/
def RelM {α β : Type} (R : α → β → Prop) : M α → M β → Prop
  | .ok a, .ok b => R a b
  | .error e, .error e' => e = e'
  | _, _ => False

theorem RelM.bind {α β γ δ : Type} {R : α → β → Prop} {S : γ → δ → Prop} {x : M α} {y : M β} {f : α → M γ} {g : β → M δ}
    (h : RelM R x y) (k : ∀ a b, x = .ok a → y = .ok b → R a b → RelM S (f a) (g b)) : RelM S (x >>= f) (y >>= g) := by
  cases x with
  | error e => cases y with
    | error e' => exact h
    | ok b => exact h.elim
  | ok a => cases y with
    | error e' => exact h.elim
    | ok b => exact k a b rfl rfl h

theorem RelM.of_eq {α : Type} {x y : M α} (h : x = y) : RelM Eq x y := by
  subst h; cases x <;> rfl

theorem RelM.bind_eq {α γ δ : Type} {S : γ → δ → Prop} {x y : M α} {f : α → M γ} {g : α → M δ}
    (h : x = y) (k : ∀ a, x = .ok a → RelM S (f a) (g a)) : RelM S (x >>= f) (y >>= g) :=
  RelM.bind (RelM.of_eq h) fun a b ha _ e => by subst e; exact k a ha

theorem RelM.ok {α β : Type} {R : α → β → Prop} {x : M α} {y : M β} (h : RelM R x y) {a : α} (e : x = .ok a) :
    ∃ b, y = .ok b ∧ R a b := by
  subst e
  cases y with
  | error e => exact h.elim
  | ok b => exact ⟨b, rfl, h⟩

/-- A new object on agreeing memories. -/
def AgreeObj (F : Foot) (x y : Heap K × Obj) : Prop := Agree F x.1 y.1 ∧ x.2 = y.2

theorem Agree.alloc {F : Foot} {h h' : Heap K} (g : Agree F h h') (s : Spl K) : AgreeObj F (h.alloc s) (h'.alloc s) := by
  refine ⟨⟨?_, ?_, ?_, ?_, ?_, ?_⟩, ?_⟩
  · simp [Heap.alloc, g.lkv]
  · simp [Heap.alloc, g.lps]
  · simp [Heap.alloc, g.lph]
  · intro a ha; exact append_congr g.lkv (g.kv a ha)
  · intro a ha; simp only [Heap.alloc, g.lkv]; exact append_congr g.lps (g.ps a ha)
  · intro a ha; exact append_congr g.lph (g.ph a ha)
  · simp [Heap.alloc, g.lps, g.lph]

theorem Agree.allocShared {F : Foot} {h h' : Heap K} (g : Agree F h h') (as : List ℕ) (s : Spl K) :
    AgreeObj F (h.allocShared as s) (h'.allocShared as s) := by
  refine ⟨⟨?_, ?_, ?_, ?_, ?_, ?_⟩, ?_⟩
  · simp [Heap.allocShared, g.lkv]
  · simp [Heap.allocShared, g.lps]
  · simp [Heap.allocShared, g.lph]
  · intro a ha; exact g.kv a ha
  · intro a ha; exact append_congr g.lps (g.ps a ha)
  · intro a ha; exact append_congr g.lph (g.ph a ha)
  · simp [Heap.allocShared, g.lps, g.lph]

theorem append_get {α : Type} {l m : List α} {a : ℕ} (h : a < l.length) : (l ++ m)[a]? = l[a]? := List.getElem?_append_left h

/-- Appending to the memory. -/
theorem keeps_append {F : Foot} {h : Heap K} (r : InRange h F) {ks : List (List K)} {cs : List (PSCell K)} {ps : List (Phys K)}
    (hc : ∀ c ∈ cs, ∀ a ∈ c.knots, a < h.kvs.length + ks.length) : Keeps F h ⟨h.kvs ++ ks, h.pss ++ cs, h.phs ++ ps⟩ := by
  refine ⟨by simp, by simp, by simp, ?_, ?_, ?_, ?_, ?_⟩
  · intro a c hac
    have hl : a < h.pss.length := (List.getElem?_eq_some_iff.1 hac).1
    exact ⟨c, by rw [append_get hl]; exact hac, rfl⟩
  · intro a ha; exact append_get (r.1 a ha)
  · exact append_get r.2.1
  · exact append_get r.2.2
  · intro w c hm a ha
    simp only [List.mem_append] at hm
    simp only [List.length_append]
    rcases hm with hm | hm
    · have := w c hm a ha; omega
    · exact hc c hm a ha

theorem keeps_alloc {F : Foot} {h : Heap K} (r : InRange h F) (s : Spl K) : Keeps F h (h.alloc s).1 ∧ Fresh h (h.alloc s).1 (h.alloc s).2 := by
  constructor
  · refine keeps_append r ?_
    intro c hc a ha
    rw [List.mem_singleton] at hc
    subst hc
    have := List.mem_range'_1.1 ha
    omega
  · refine ⟨le_rfl, le_rfl, ⟨by simp [Heap.alloc], by simp [Heap.alloc]⟩, ?_⟩
    intro c hc a ha
    simp only [Heap.alloc] at hc
    rw [List.getElem?_append_right le_rfl] at hc
    simp only [Nat.sub_self, List.getElem?_cons_zero, Option.some.injEq] at hc
    subst hc
    exact (List.mem_range'_1.1 ha).1

theorem keeps_allocShared {F : Foot} {h : Heap K} (r : InRange h F) {as : List ℕ} (ha : ∀ a ∈ as, a < h.kvs.length) (s : Spl K) :
    Keeps F h (h.allocShared as s).1 := by
  have := keeps_append r (ks := []) (cs := [⟨as, s.ps.degree, s.ps.basis⟩]) (ps := [s.ph]) (by
    intro c hc a h2
    rw [List.mem_singleton] at hc
    subst hc
    exact ha a h2)
  simpa [Heap.allocShared] using this

variable [LinearOrder K] [Field K]

theorem bind_ok {α β : Type} {x : M α} {f : α → M β} {b : β} (h : (x >>= f) = .ok b) : ∃ a, x = .ok a ∧ f a = .ok b := by
  cases x with
  | error e => cases h
  | ok a => exact ⟨a, rfl, h⟩

theorem keeps_newSpline {F : Foot} {h : Heap K} (r : InRange h F) {as degree : List ℕ} {points : List (List K)} {weights : Option (List K)}
    {x : Heap K × Obj} (e : h.newSpline as degree points weights = .ok x) : Keeps F h x.1 ∧ Fresh h x.1 x.2 := by
  obtain ⟨ks, _, e⟩ := bind_ok e
  obtain ⟨s, _, e⟩ := bind_ok e
  cases e
  exact keeps_alloc r s

theorem keeps_copy {F : Foot} {h : Heap K} (r : InRange h F) {o : Obj} {x : Heap K × Obj} (e : h.copy o = .ok x) :
    Keeps F h x.1 ∧ Fresh h x.1 x.2 := by
  obtain ⟨ks, _, e⟩ := bind_ok e
  obtain ⟨s, _, e⟩ := bind_ok e
  cases e
  exact keeps_alloc r s

theorem getN_ok {α : Type} {l : List α} {i : ℕ} {a : α} (h : getN l i = .ok a) : l[i]? = some a := by
  simp only [getN] at h
  split at h
  · rename_i x hx; cases h; exact hx
  · cases h

theorem keeps_call {F : Foot} {h : Heap K} {o : Obj} (a : Apart h o F) {f : Spl K → M (Spl K)} {h' : Heap K} (e : h.call o f = .ok h') :
    Keeps F h h' := by
  obtain ⟨c, hc, e⟩ := bind_ok e
  obtain ⟨s, _, e⟩ := bind_ok e
  obtain ⟨s', _, e⟩ := bind_ok e
  have hc := getN_ok hc
  split at e
  · rename_i hcond
    cases e
    refine ⟨by simp [writeAll_length], by simp, by simp, ?_, ?_, ?_, ?_, ?_⟩
    · intro i x hx
      simp only [List.getElem?_set]
      by_cases hi : o.ps = i
      · subst hi
        rw [hc] at hx
        cases hx
        have := (List.getElem?_eq_some_iff.1 hc).1
        simp [this]
      · simp [hi, hx]
    · intro i hi; exact writeAll_get fun hm => a.2.2 c hc i hm hi
    · exact List.getElem?_set_ne a.1
    · exact List.getElem?_set_ne a.2.1
    · intro w x hx i hi
      rw [writeAll_length]
      rcases List.mem_or_eq_of_mem_set hx with hx | rfl
      · exact w x hx i hi
      · exact w c (List.mem_of_getElem? hc) i hi
  · cases e

theorem Agree.newSpline {F : Foot} {h h' : Heap K} (g : Agree F h h') {as : List ℕ} (ha : ∀ a ∈ as, a ∉ F.kv) (degree : List ℕ)
    (points : List (List K)) (weights : Option (List K)) :
    RelM (AgreeObj F) (h.newSpline as degree points weights) (h'.newSpline as degree points weights) := by
  refine RelM.bind_eq (readAll_congr fun a h1 => g.kv a (ha a h1)) fun ks _ => ?_
  refine RelM.bind_eq rfl fun s _ => ?_
  exact g.alloc s

theorem Agree.copy {F : Foot} {h h' : Heap K} (g : Agree F h h') {o : Obj} (a : Apart h o F) : RelM (AgreeObj F) (h.copy o) (h'.copy o) := by
  refine RelM.bind_eq (g.view a) fun ks _ => ?_
  refine RelM.bind_eq rfl fun s _ => ?_
  exact g.alloc s

theorem Agree.newGenerator {F : Foot} {h h' : Heap K} (g : Agree F h h') {as : List ℕ} (ha : ∀ a ∈ as, a ∉ F.kv) (degree : List ℕ)
    (points : List (List K)) (weights : Option (List K)) :
    RelM (AgreeObj F) (h.newGenerator as degree points weights) (h'.newGenerator as degree points weights) := by
  cases weights with
  | none => exact g.newSpline ha degree points none
  | some w =>
    refine RelM.bind_eq (readAll_congr fun a h1 => g.kv a (ha a h1)) fun ks _ => ?_
    refine RelM.bind_eq rfl fun ph _ => ?_
    refine RelM.bind_eq rfl fun ps _ => ?_
    exact g.allocShared as _

theorem Agree.call {F : Foot} {h h' : Heap K} (g : Agree F h h') {o : Obj} (a : Apart h o F) (f : Spl K → M (Spl K)) :
    RelM (Agree F) (h.call o f) (h'.call o f) := by
  refine RelM.bind_eq (getN_congr (g.ps _ a.1)) fun c hc => ?_
  refine RelM.bind_eq (g.view a) fun s _ => ?_
  refine RelM.bind_eq rfl fun s' _ => ?_
  split
  · refine ⟨?_, ?_, ?_, ?_, ?_, ?_⟩
    · simp [writeAll_length, g.lkv]
    · simp [g.lps]
    · simp [g.lph]
    · intro i hi; exact writeAll_congr g.lkv (g.kv i hi)
    · intro i hi; exact set_congr g.lps (g.ps i hi)
    · intro i hi; exact set_congr g.lph (g.ph i hi)
  · rfl

theorem Keeps.live {F : Foot} {h h' : Heap K} (k : Keeps F h h') {o : Obj} (l : Live h o) : Live h' o := l.keeps k

theorem view_live {h : Heap K} {o : Obj} {s : Spl K} (e : h.view o = .ok s) : Live h o := by
  obtain ⟨c, hc, e⟩ := bind_ok e
  obtain ⟨ks, _, e⟩ := bind_ok e
  obtain ⟨ph, hp, _⟩ := bind_ok e
  exact ⟨(List.getElem?_eq_some_iff.1 (getN_ok hc)).1, (List.getElem?_eq_some_iff.1 (getN_ok hp)).1⟩

theorem keeps_subdividePart {F : Foot} {h : Heap K} (r : InRange h F) {o : Obj} {knots : List (List K)} {first : ℤ} {d : ℕ}
    {x : Heap K × Obj × ℤ} (e : h.subdividePart o knots first d = .ok x) : Keeps F h x.1 ∧ Fresh h x.1 x.2.1 := by
  obtain ⟨c, _, e⟩ := bind_ok e
  obtain ⟨s, _, e⟩ := bind_ok e
  obtain ⟨U, _, e⟩ := bind_ok e
  obtain ⟨p, _, e⟩ := bind_ok e
  obtain ⟨points, _, e⟩ := bind_ok e
  obtain ⟨weights, _, e⟩ := bind_ok e
  obtain ⟨⟨h2, r2⟩, e2, e⟩ := bind_ok e
  obtain ⟨⟨h3, r3⟩, e3, e⟩ := bind_ok e
  cases e
  have k1 : Keeps F h (⟨h.kvs ++ [U], h.pss, h.phs⟩ : Heap K) := by
    have := keeps_append r (ks := [U]) (cs := []) (ps := []) (by simp)
    simpa using this
  obtain ⟨k2, f2⟩ := keeps_newSpline (r.keeps k1) e2
  obtain ⟨k3, f3⟩ := keeps_copy ((r.keeps k1).keeps k2) e3
  exact ⟨(k1.trans k2).trans k3, f3.mono (k1.trans k2)⟩

theorem keeps_subdivide {F : Foot} {h : Heap K} (r : InRange h F) {o : Obj} (a : Apart h o F) {t : K} {d : ℕ}
    {x : Heap K × Obj × Obj} (e : h.subdivide o t d = .ok x) :
    Keeps F h x.1 ∧ Fresh h x.1 x.2.1 ∧ Fresh h x.1 x.2.2 := by
  obtain ⟨s, _, e⟩ := bind_ok e
  obtain ⟨U, _, e⟩ := bind_ok e
  obtain ⟨p, _, e⟩ := bind_ok e
  obtain ⟨h1, e1, e⟩ := bind_ok e
  obtain ⟨s1, _, e⟩ := bind_ok e
  obtain ⟨⟨kl, kr⟩, _, e⟩ := bind_ok e
  obtain ⟨⟨h2, l, len⟩, e2, e⟩ := bind_ok e
  obtain ⟨⟨h3, r3, len3⟩, e3, e⟩ := bind_ok e
  cases e
  have k1 := keeps_call a e1
  obtain ⟨k2, f2⟩ := keeps_subdividePart (r.keeps k1) e2
  obtain ⟨k3, f3⟩ := keeps_subdividePart ((r.keeps k1).keeps k2) e3
  exact ⟨(k1.trans k2).trans k3, (f2.mono k1).keeps k3, f3.mono (k1.trans k2)⟩

theorem Agree.subdividePart {F : Foot} {h h' : Heap K} (g : Agree F h h') (r : InRange h F) {o : Obj} (a : Apart h o F)
    (knots : List (List K)) (first : ℤ) (d : ℕ) :
    RelM (fun x y => Agree F x.1 y.1 ∧ x.2 = y.2) (h.subdividePart o knots first d) (h'.subdividePart o knots first d) := by
  refine RelM.bind_eq (getN_congr (g.ps _ a.1)) fun c hc => ?_
  refine RelM.bind_eq (g.view a) fun s _ => ?_
  refine RelM.bind_eq rfl fun U _ => ?_
  refine RelM.bind_eq rfl fun p _ => ?_
  refine RelM.bind_eq rfl fun points _ => ?_
  refine RelM.bind_eq rfl fun weights _ => ?_
  have k1 : Keeps F h (⟨h.kvs ++ [U], h.pss, h.phs⟩ : Heap K) := by
    have := keeps_append r (ks := [U]) (cs := []) (ps := []) (by simp)
    simpa using this
  have g1 : Agree F (⟨h.kvs ++ [U], h.pss, h.phs⟩ : Heap K) (⟨h'.kvs ++ [U], h'.pss, h'.phs⟩ : Heap K) :=
    ⟨by simp [g.lkv], g.lps, g.lph, fun i hi => append_congr g.lkv (g.kv i hi), g.ps, g.ph⟩
  have hn : ∀ i ∈ c.knots.set d h.kvs.length, i ∉ F.kv := by
    intro i hi hf
    rcases List.mem_or_eq_of_mem_set hi with hi | rfl
    · exact a.2.2 c (getN_ok hc) i hi hf
    · exact absurd (r.1 _ hf) (lt_irrefl _)
  rw [← g.lkv]
  refine RelM.bind (g1.newSpline hn s.ps.degree points weights) ?_
  rintro ⟨h2, r2⟩ ⟨h2', r2'⟩ e2 _ ⟨g2, e⟩
  cases e
  obtain ⟨k2, f2⟩ := keeps_newSpline (r.keeps k1) e2
  refine RelM.bind (g2.copy (f2.apart (r.keeps k1))) ?_
  rintro ⟨h3, r3⟩ ⟨h3', r3'⟩ _ _ ⟨g3, e⟩
  cases e
  exact ⟨g3, rfl⟩

theorem Agree.subdivide {F : Foot} {h h' : Heap K} (g : Agree F h h') (r : InRange h F) {o : Obj} (a : Apart h o F) (t : K) (d : ℕ) :
    RelM (fun x y => Agree F x.1 y.1 ∧ x.2 = y.2) (h.subdivide o t d) (h'.subdivide o t d) := by
  refine RelM.bind_eq (g.view a) fun s hs => ?_
  have l := view_live hs
  refine RelM.bind_eq rfl fun U _ => ?_
  refine RelM.bind_eq rfl fun p _ => ?_
  refine RelM.bind (g.call a _) ?_
  intro h1 h1' e1 _ g1
  have k1 := keeps_call a e1
  have a1 := a.keeps l k1
  refine RelM.bind_eq (g1.view a1) fun s1 _ => ?_
  refine RelM.bind_eq rfl fun ks _ => ?_
  obtain ⟨kl, kr⟩ := ks
  refine RelM.bind (g1.subdividePart (r.keeps k1) a1 kl 0 d) ?_
  rintro ⟨h2, l2, len⟩ ⟨h2', l2', len'⟩ e2 _ ⟨g2, e⟩
  cases e
  obtain ⟨k2, _⟩ := keeps_subdividePart (r.keeps k1) e2
  refine RelM.bind (g2.subdividePart ((r.keeps k1).keeps k2) (a1.keeps (l.keeps k1) k2) kr len d) ?_
  rintro ⟨h3, l3, len3⟩ ⟨h3', l3', len3'⟩ _ _ ⟨g3, e⟩
  cases e
  exact ⟨g3, rfl⟩

/-- A call on an object only changes what its own addresses hold. -/
theorem agree_call {F : Foot} {h : Heap K} {o : Obj} (a : HasFoot h o F) {f : Spl K → M (Spl K)} {h' : Heap K} (e : h.call o f = .ok h') :
    Agree F h' h ∧ HasFoot h' o F ∧ (h.WF → h'.WF) := by
  obtain ⟨c, hc, e⟩ := bind_ok e
  obtain ⟨s, hs, e⟩ := bind_ok e
  obtain ⟨s', _, e⟩ := bind_ok e
  have hc := getN_ok hc
  obtain ⟨a1, a2, c', hc', a3⟩ := a
  rw [hc] at hc'
  cases hc'
  split at e
  · cases e
    refine ⟨⟨by simp [writeAll_length], by simp, by simp, ?_, ?_, ?_⟩, ⟨a1, a2, ⟨c.knots, s'.ps.degree, s'.ps.basis⟩, ?_, a3⟩, ?_⟩
    · intro i hi; exact writeAll_get (by rw [a3]; exact hi)
    · intro i hi; exact List.getElem?_set_ne (by rw [a1]; exact hi.symm)
    · intro i hi; exact List.getElem?_set_ne (by rw [a2]; exact hi.symm)
    · exact List.getElem?_set_self (List.getElem?_eq_some_iff.1 hc).1
    · intro w x hx i hi
      rw [writeAll_length]
      rcases List.mem_or_eq_of_mem_set hx with hx | rfl
      · exact w x hx i hi
      · exact w c (List.mem_of_getElem? hc) i hi
  · cases e

theorem view_ok {h : Heap K} {o : Obj} {s : Spl K} {c : PSCell K} {ks : List (List K)} {ph : Phys K} (hc : h.pss[o.ps]? = some c)
    (hk : readAll h.kvs c.knots = .ok ks) (hp : h.phs[o.ph]? = some ph) : h.view o = .ok ⟨⟨ks, c.degree, c.basis⟩, ph⟩ := by
  have h1 : getN h.pss o.ps = .ok c := by simp only [getN, hc]
  have h2 : getN h.phs o.ph = .ok ph := by simp only [getN, hp]
  simp only [Heap.view, h1, hk, h2, ok_bind, pure_ok]

/-- What the object holds after a call. -/
theorem view_call {h : Heap K} (w : h.WF) {o : Obj} {f : Spl K → M (Spl K)} {h' : Heap K} (e : h.call o f = .ok h') :
    ∃ s s', h.view o = .ok s ∧ f s = .ok s' ∧ h'.view o = .ok s' := by
  obtain ⟨c, hc, e⟩ := bind_ok e
  obtain ⟨s, hs, e⟩ := bind_ok e
  obtain ⟨s', hf, e⟩ := bind_ok e
  have hc := getN_ok hc
  split at e
  · rename_i hcond
    cases e
    have l := view_live hs
    refine ⟨s, s', hs, hf, ?_⟩
    refine view_ok (c := ⟨c.knots, s'.ps.degree, s'.ps.basis⟩) (s := s) (List.getElem?_set_self l.1)
      (readAll_writeAll hcond.1 hcond.2 (w c (List.mem_of_getElem? hc))) (List.getElem?_set_self l.2)
  · cases e

/-- What a new object holds. -/
theorem view_alloc (h : Heap K) (s : Spl K) : (h.alloc s).1.view (h.alloc s).2 = .ok s := by
  refine view_ok (s := s) (c := ⟨List.range' h.kvs.length s.ps.knots.length, s.ps.degree, s.ps.basis⟩) (ph := s.ph) ?_ ?_ ?_
  · simp [Heap.alloc]
  · have := readAll_range (pre := h.kvs) (Us := s.ps.knots) (post := [])
    simpa [Heap.alloc] using this
  · simp [Heap.alloc]

/-- Memory cells of `F` unchanged: the object holds what it held. -/
theorem Keeps.view {F : Foot} {h h' : Heap K} (k : Keeps F h h') {o : Obj} (a : HasFoot h o F) : h'.view o = h.view o := by
  obtain ⟨a1, a2, c, hc, a3⟩ := a
  unfold Heap.view
  rw [a1, a2, getN_congr k.sps, getN_congr k.sph]
  have : getN h.pss F.ps = .ok c := by rw [a1] at hc; simp only [getN, hc]
  rw [this]
  simp only [ok_bind]
  rw [readAll_congr fun i hi => k.skv i (by rw [← a3]; exact hi)]

end Heap
end SplineLib
