import Verif.Model.Bound
import Verif.Spec.Bound
import Verif.Props.Grid02

/-!
# C20–C22: boundaries of the simulation volume
-/

set_option linter.unusedSectionVars false

namespace Verif.Bound

open Verif Verif.Grid Verif.Spec.Grid Verif.Spec.Bound

section
variable {n : ℕ} {K : Type} [Field K] [LinearOrder K] [IsStrictOrderedRing K] [FloorRing K]

/-- Axis `a` of a grid, in the terms of the specification. -/
def axisOf (g : Obj n K) (a : Fin n) : Axis K :=
  { N := g.shape a, step := g.step a, center := g.center a, centerAtIndex := g.centerAtIndex a }

/-- A grid as used for bounds: made of sequences, in the natural order, and with at least one sample along every axis. -/
structure Plain (g : Obj n K) : Prop where
  multi : g.multidimensional = true
  ordered : ∀ a, g.originAtCenter a = true
  nonempty : ∀ a, 1 ≤ g.shape a

/-- A point of the grid. -/
def OnGrid (g : Obj n K) (p : Fin n → K) : Prop := ∀ a, (axisOf g a).IsSample (p a)

/-! ### Lemmas -/

theorem coords_samples {g : Obj n K} (hg : Plain g) (a : Fin n) :
    g.coords a = (List.range (g.shape a)).map fun (j : ℕ) => (axisOf g a).first + j * g.step a := by
  rw [C02_ordered g a (hg.ordered a)]; rfl

theorem firstOf_eq {b : Absorbing n K} (hg : Plain b.grid) (a : Fin n) : firstOf b a = (axisOf b.grid a).first := by
  unfold firstOf
  rw [coords_samples hg]
  obtain ⟨m, hm⟩ : ∃ m, b.grid.shape a = m + 1 := ⟨b.grid.shape a - 1, by have := hg.nonempty a; omega⟩
  rw [hm]
  simp [List.range_succ_eq_map]

theorem lastOf_eq {b : Absorbing n K} (hg : Plain b.grid) (a : Fin n) : lastOf b a = (axisOf b.grid a).last := by
  unfold lastOf
  rw [coords_samples hg]
  obtain ⟨m, hm⟩ : ∃ m, b.grid.shape a = m + 1 := ⟨b.grid.shape a - 1, by have := hg.nonempty a; omega⟩
  rw [hm]
  simp [List.range_succ, Axis.last, axisOf, hm]

theorem sample_mem {g : Obj n K} (hg : Plain g) {p : Fin n → K} (hp : OnGrid g p) (a : Fin n) : p a ∈ g.coords a := by
  rw [coords_samples hg]
  obtain ⟨j, hj, h⟩ := hp a
  rw [List.mem_map]
  exact ⟨j, List.mem_range.2 hj, h.symm⟩

theorem sample_range {g : Obj n K} {p : Fin n → K} (hp : OnGrid g p) {a : Fin n} (hs : 0 ≤ g.step a) :
    (axisOf g a).first ≤ p a ∧ p a ≤ (axisOf g a).last := by
  obtain ⟨j, hj, h⟩ := hp a
  have hj0 : (0 : K) ≤ j := Nat.cast_nonneg j
  have hj1 : (j : K) ≤ (g.shape a : K) - 1 := by
    have : ((j + 1 : ℕ) : K) ≤ (g.shape a : K) := by exact_mod_cast (show j + 1 ≤ g.shape a from hj)
    push_cast at this; linarith
  have hstep : (axisOf g a).step = g.step a := rfl
  have hN : (axisOf g a).N = g.shape a := rfl
  rw [h, Axis.last, hstep, hN]
  constructor
  · have := mul_nonneg hj0 hs; linarith
  · have := mul_le_mul_of_nonneg_right hj1 hs; linarith

theorem foldl_and {α : Type} (l : List α) (f : α → Bool) (r : Bool) :
    l.foldl (fun result x => result && f x) r = (r && l.all f) := by
  induction l generalizing r with
  | nil => simp
  | cons x xs ih => simp [ih, Bool.and_assoc]

theorem between_iff {b : Absorbing n K} {p : Fin n → K} : between b p = true ↔
    ∀ a, firstOf b a + b.thickness a false ≤ p a ∧ p a ≤ lastOf b a - b.thickness a true := by
  unfold between
  rw [foldl_and]
  simp [List.all_eq_true]

theorem mem_sides (s : Fin n × Bool) : s ∈ sides n := by
  unfold sides
  rw [List.mem_flatMap]
  obtain ⟨a, s⟩ := s
  exact ⟨a, List.mem_finRange a, by cases s <;> simp⟩

/-- The contribution of one side. -/
def term (b : Absorbing n K) (p : Fin n → K) (s : Fin n × Bool) : K :=
  if 0 < depth b s.1 s.2 (p s.1) then b.kappaFunction s.1 s.2 (depth b s.1 s.2 (p s.1) / signedThickness b s.1 s.2) else 0

theorem update_eq {b : Absorbing n K} {p : Fin n → K} (hp : ∀ a, p a ∈ b.grid.coords a) {kappa : K} (hk : 0 ≤ kappa)
    (s : Fin n × Bool) : update b p kappa s = max kappa (term b p s) := by
  unfold update term
  simp only [gt_iff_lt]
  by_cases hd : 0 < depth b s.1 s.2 (p s.1)
  · have : (b.grid.coords s.1).any (fun x => decide (0 < depth b s.1 s.2 x)) = true := by
      rw [List.any_eq_true]; exact ⟨p s.1, hp s.1, by simpa using hd⟩
    rw [if_pos this, if_pos hd]
    simp [hd, b2k]
  · rw [if_neg hd]
    have h0 : b2k (decide (0 < depth b s.1 s.2 (p s.1))) = (0 : K) := by simp [hd, b2k]
    rw [h0, mul_zero]
    split_ifs
    · rfl
    · exact (max_eq_left hk).symm

theorem foldl_update {b : Absorbing n K} {p : Fin n → K} (hp : ∀ a, p a ∈ b.grid.coords a) (l : List (Fin n × Bool))
    {k : K} (hk : 0 ≤ k) : l.foldl (update b p) k = l.foldl (fun k s => max k (term b p s)) k := by
  induction l generalizing k with
  | nil => rfl
  | cons s l ih =>
    rw [List.foldl_cons, List.foldl_cons, update_eq hp hk, ih (hk.trans (le_max_left _ _))]

theorem le_foldl_max {α : Type} (l : List α) (f : α → K) (k : K) :
    k ≤ l.foldl (fun k s => max k (f s)) k ∧ ∀ s ∈ l, f s ≤ l.foldl (fun k s => max k (f s)) k := by
  induction l generalizing k with
  | nil => simp
  | cons x xs ih =>
    rw [List.foldl_cons]
    obtain ⟨h1, h2⟩ := ih (max k (f x))
    refine ⟨(le_max_left _ _).trans h1, fun s hs => ?_⟩
    rcases List.mem_cons.1 hs with rfl | hs
    · exact (le_max_right _ _).trans h1
    · exact h2 s hs

theorem foldl_max_le {α : Type} (l : List α) (f : α → K) {k B : K} (hk : k ≤ B) (h : ∀ s ∈ l, f s ≤ B) :
    l.foldl (fun k s => max k (f s)) k ≤ B := by
  induction l generalizing k with
  | nil => exact hk
  | cons x xs ih =>
    rw [List.foldl_cons]
    exact ih (max_le hk (h x (by simp))) fun s hs => h s (by simp [hs])

/-- The extinction is the largest of zero and the contributions of the sides. -/
theorem extinction_spec {b : Absorbing n K} (hg : Plain b.grid) {p : Fin n → K} (hp : OnGrid b.grid p) :
    ∃ kappa, extinction b p = .ok kappa ∧ 0 ≤ kappa ∧ (∀ s, term b p s ≤ kappa) ∧
      ∀ B, 0 ≤ B → (∀ s, term b p s ≤ B) → kappa ≤ B := by
  refine ⟨_, by rw [extinction, if_pos hg.multi], ?_⟩
  rw [foldl_update (sample_mem hg hp) _ le_rfl]
  obtain ⟨h1, h2⟩ := le_foldl_max (sides n) (term b p) (0 : K)
  exact ⟨h1, fun s => h2 s (mem_sides s), fun B hB h => foldl_max_le _ _ hB fun s _ => h s⟩

theorem signK_pos {x : K} (h : 0 < x) : signK x = 1 := by simp [signK, h]
theorem signK_neg' {x : K} (h : x < 0) : signK x = -1 := by simp [signK, h, h.not_gt]

theorem depth_pos_step {b : Absorbing n K} (hg : Plain b.grid) {a : Fin n} (hs : 0 < b.grid.step a) (back : Bool) (x : K) :
    depth b a back x = (if back then x - ((axisOf b.grid a).last - b.thickness a back)
      else ((axisOf b.grid a).first + b.thickness a back) - x) := by
  unfold depth signedThickness
  rw [signK_pos hs, firstOf_eq hg, lastOf_eq hg]
  cases back <;> simp

/-! ### C20 -/

/-- **C20.** `between` and `beyond` are complementary. -/
theorem C20_complementary (b : Absorbing n K) (p : Fin n → K) : beyond b p = true ↔ ¬ between b p = true := by
  simp [beyond]

/-- **C20.** On a grid with positive steps, a point of the grid is between the boundaries if and only if, along every axis, it is
at least the thickness of the boundary away from both edges.  The inner edge is considered between the boundaries. -/
theorem C20_between_partial {b : Absorbing n K} (hg : Plain b.grid) (hs : ∀ a, 0 < b.grid.step a) {p : Fin n → K}
    (hp : OnGrid b.grid p) :
    between b p = true ↔ ∀ a back, b.thickness a back ≤ (axisOf b.grid a).fromEdge back (p a) := by
  rw [between_iff]
  constructor
  · intro h a back
    obtain ⟨h0, h1⟩ := sample_range hp (hs a).le
    have := h a
    rw [firstOf_eq hg, lastOf_eq hg] at this
    unfold Axis.fromEdge
    cases back
    · simp only [Bool.false_eq_true, if_false]; rw [abs_of_nonneg (by linarith)]; linarith
    · simp only [if_true]; rw [abs_of_nonneg (by linarith)]; linarith
  · intro h a
    obtain ⟨h0, h1⟩ := sample_range hp (hs a).le
    have f := h a false
    have t := h a true
    rw [firstOf_eq hg, lastOf_eq hg]
    unfold Axis.fromEdge at f t
    simp only [Bool.false_eq_true, if_false, if_true] at f t
    rw [abs_of_nonneg (by linarith)] at f t
    constructor <;> linarith

/-- **C20.** On a grid with positive steps the extinction is zero at all points between the boundaries. -/
theorem C20_extinction_between_partial {b : Absorbing n K} (hg : Plain b.grid) (hs : ∀ a, 0 < b.grid.step a)
    {p : Fin n → K} (hp : OnGrid b.grid p) (hb : between b p = true) : extinction b p = .ok 0 := by
  obtain ⟨kappa, hk, h0, -, hB⟩ := extinction_spec hg hp
  rw [hk]
  congr 1
  refine le_antisymm (hB 0 le_rfl fun s => ?_) h0
  have h := between_iff.1 hb s.1
  rw [firstOf_eq hg, lastOf_eq hg] at h
  unfold term
  rw [if_neg]
  rw [depth_pos_step hg (hs _), not_lt]
  cases s.2
  · simp only [Bool.false_eq_true, if_false]; linarith [h.1]
  · simp only [if_true]; linarith [h.2]

/-- **C20.** On a grid with positive steps, and with extinction functions that are positive for positive depth, the extinction
is positive at all points beyond. -/
theorem C20_extinction_beyond_partial {b : Absorbing n K} (hg : Plain b.grid) (hs : ∀ a, 0 < b.grid.step a)
    (hf : ∀ a s d, 0 < d → 0 < b.kappaFunction a s d) {p : Fin n → K} (hp : OnGrid b.grid p)
    (hb : beyond b p = true) : ∃ kappa, extinction b p = .ok kappa ∧ 0 < kappa := by
  obtain ⟨kappa, hk, h0, ht, -⟩ := extinction_spec hg hp
  refine ⟨kappa, hk, ?_⟩
  have hnb : ¬ between b p = true := (C20_complementary b p).1 hb
  rw [between_iff] at hnb
  push Not at hnb
  obtain ⟨a, ha⟩ := hnb
  rw [firstOf_eq hg, lastOf_eq hg] at ha
  obtain ⟨h1, h2⟩ := sample_range hp (hs a).le
  have key : ∀ s, 0 < depth b a s (p a) → 0 < b.thickness a s → 0 < kappa := by
    intro s hd hthick
    refine lt_of_lt_of_le ?_ (ht (a, s))
    unfold term
    simp only
    rw [if_pos hd]
    refine hf _ _ _ (div_pos hd ?_)
    unfold signedThickness
    rw [signK_pos (hs a), mul_one]; exact hthick
  by_cases hfr : (axisOf b.grid a).first + b.thickness a false ≤ p a
  · refine key true ?_ ?_
    · rw [depth_pos_step hg (hs a)]; simp only [if_true]; linarith [ha hfr]
    · linarith [ha hfr]
  · refine key false ?_ ?_
    · rw [depth_pos_step hg (hs a)]; simp only [Bool.false_eq_true, if_false]; linarith
    · linarith

/-- **C20 is violated on axes with a negative step**: with two or more samples along such an axis, no point is considered between the
boundaries, whatever the (non-negative) thickness, including for periodic boundaries. -/
theorem C20_negative_step_violates {b : Absorbing n K} (hg : Plain b.grid) {a : Fin n} (hs : b.grid.step a < 0)
    (hN : 2 ≤ b.grid.shape a) (ht : ∀ s, 0 ≤ b.thickness a s) (p : Fin n → K) : between b p = false := by
  rw [← Bool.not_eq_true, between_iff]
  intro h
  have h := h a
  rw [firstOf_eq hg, lastOf_eq hg, Axis.last] at h
  have hN' : (2 : K) ≤ ((axisOf b.grid a).N : K) := by exact_mod_cast hN
  have : ((axisOf b.grid a).N - 1 : K) * (axisOf b.grid a).step < 0 :=
    mul_neg_of_pos_of_neg (by linarith) hs
  linarith [ht false, ht true, h.1, h.2]

/-- **C20 is violated by grids that are made of scalars**: `Grid(5)` instead of `Grid([5])`. -/
theorem C20_scalar_grid_violates (b : Absorbing 1 K) (hm : b.grid.multidimensional = false) (hN : 2 ≤ b.grid.shape 0)
    (p : Fin 1 → K) : extinction b p = .error .indexError := by
  unfold extinction
  rw [hm, if_neg (by simp), dif_pos one_pos, if_pos]
  exact hN

/-! ### C21 -/

/-- How far a point is into the boundary at one side, relative to its thickness; zero outside of it. -/
def RelativeDepth (ax : Axis K) (thickness : K) (back : Bool) (x r : K) : Prop :=
  if ax.fromEdge back x < thickness then r = 1 - ax.fromEdge back x / thickness else r = 0

theorem term_linear {grid : Obj n K} {thickness kappaMax : Fin n → Bool → K} (hg : Plain grid)
    (hs : ∀ a, 0 < grid.step a) {p : Fin n → K} (hp : OnGrid grid p) (s : Fin n × Bool) {r : K}
    (hr : RelativeDepth (axisOf grid s.1) (thickness s.1 s.2) s.2 (p s.1) r) :
    term (linear grid thickness kappaMax) p s = kappaMax s.1 s.2 * r ∧ 0 ≤ r ∧ r ≤ 1 := by
  obtain ⟨a, side⟩ := s
  obtain ⟨h0, h1⟩ := sample_range hp (hs a).le
  have hd : depth (linear grid thickness kappaMax) a side (p a) = thickness a side - (axisOf grid a).fromEdge side (p a) := by
    rw [depth_pos_step (b := linear grid thickness kappaMax) hg (hs a)]
    unfold Axis.fromEdge
    cases side
    · simp only [Bool.false_eq_true, if_false]; rw [abs_of_nonneg (by linarith)]; simp only [linear]; ring
    · simp only [if_true]; rw [abs_of_nonneg (by linarith)]; simp only [linear]; ring
  have hst : signedThickness (linear grid thickness kappaMax) a side = thickness a side := by
    unfold signedThickness
    rw [show (linear grid thickness kappaMax).grid.step a = grid.step a from rfl, signK_pos (hs a), mul_one]; rfl
  have he : 0 ≤ (axisOf grid a).fromEdge side (p a) := by unfold Axis.fromEdge; split <;> exact abs_nonneg _
  unfold term
  simp only at hr ⊢
  rw [hd, hst]
  unfold RelativeDepth at hr
  split_ifs at hr with hlt
  · have hpos : 0 < thickness a side := lt_of_le_of_lt he hlt
    rw [if_pos (by linarith)]
    subst hr
    refine ⟨?_, ?_, ?_⟩
    · simp only [linear]; congr 1; field_simp
    · rw [sub_nonneg, div_le_one hpos]; exact hlt.le
    · have := div_nonneg he hpos.le; linarith
  · rw [if_neg (by linarith)]
    subst hr
    exact ⟨by ring, le_rfl, zero_le_one⟩

theorem relativeDepth_exists (ax : Axis K) (t : K) (back : Bool) (x : K) : ∃ r, RelativeDepth ax t back x r := by
  unfold RelativeDepth
  split
  · exact ⟨_, rfl⟩
  · exact ⟨_, rfl⟩

/-- **C21.** The extinction of a linear bound is the largest, over all sides, of the maximum for that side times the relative depth. -/
theorem C21_profile_partial {grid : Obj n K} {thickness kappaMax : Fin n → Bool → K} (hg : Plain grid)
    (hs : ∀ a, 0 < grid.step a) {p : Fin n → K} (hp : OnGrid grid p) {r : Fin n → Bool → K}
    (hr : ∀ a s, RelativeDepth (axisOf grid a) (thickness a s) s (p a) (r a s)) :
    ∃ kappa, extinction (linear grid thickness kappaMax) p = .ok kappa ∧ 0 ≤ kappa ∧
      (∀ a s, kappaMax a s * r a s ≤ kappa) ∧ (∀ B, 0 ≤ B → (∀ a s, kappaMax a s * r a s ≤ B) → kappa ≤ B) := by
  obtain ⟨kappa, hk, h0, h1, h2⟩ := extinction_spec (b := linear grid thickness kappaMax) hg hp
  refine ⟨kappa, hk, h0, fun a s => ?_, fun B hB h => h2 B hB fun s => ?_⟩
  · have := h1 (a, s)
    rwa [(term_linear hg hs hp (a, s) (hr a s)).1] at this
  · rw [(term_linear hg hs hp s (hr s.1 s.2)).1]
    exact h s.1 s.2

/-- **C21.** It lies between 0 and the maximum. -/
theorem C21_range_partial {grid : Obj n K} {thickness kappaMax : Fin n → Bool → K} {B : K} (hg : Plain grid)
    (hs : ∀ a, 0 < grid.step a) {p : Fin n → K} (hp : OnGrid grid p) (h0 : ∀ a s, 0 ≤ kappaMax a s)
    (hB : ∀ a s, kappaMax a s ≤ B) (hB0 : 0 ≤ B) :
    ∃ kappa, extinction (linear grid thickness kappaMax) p = .ok kappa ∧ 0 ≤ kappa ∧ kappa ≤ B := by
  obtain ⟨kappa, hk, hn, -, h2⟩ := extinction_spec (b := linear grid thickness kappaMax) hg hp
  refine ⟨kappa, hk, hn, h2 B hB0 fun s => ?_⟩
  obtain ⟨r, hr⟩ := relativeDepth_exists (axisOf grid s.1) (thickness s.1 s.2) s.2 (p s.1)
  obtain ⟨he, hr0, hr1⟩ := term_linear (kappaMax := kappaMax) hg hs hp s hr
  rw [he]
  have := h0 s.1 s.2
  have := hB s.1 s.2
  nlinarith

/-- **C21.** It is the maximum at the outermost points. -/
theorem C21_outermost_partial {grid : Obj n K} {thickness kappaMax : Fin n → Bool → K} {B : K} (hg : Plain grid)
    (hs : ∀ a, 0 < grid.step a) {p : Fin n → K} (hp : OnGrid grid p) (h0 : ∀ a s, 0 ≤ kappaMax a s)
    (hB : ∀ a s, kappaMax a s ≤ B) {a : Fin n} {s : Bool} (ht : 0 < thickness a s) (hBa : kappaMax a s = B)
    (hout : p a = (if s then (axisOf grid a).last else (axisOf grid a).first)) :
    extinction (linear grid thickness kappaMax) p = .ok B := by
  have hB0 : 0 ≤ B := hBa ▸ h0 a s
  obtain ⟨kappa, hk, -, hle⟩ := C21_range_partial (thickness := thickness) hg hs hp h0 hB hB0
  obtain ⟨kappa', hk', -, h1, -⟩ := extinction_spec (b := linear grid thickness kappaMax) hg hp
  rw [hk] at hk'
  cases hk'
  rw [hk]
  congr 1
  refine le_antisymm hle ?_
  have hr : RelativeDepth (axisOf grid a) (thickness a s) s (p a) 1 := by
    have : (axisOf grid a).fromEdge s (p a) = 0 := by unfold Axis.fromEdge; rw [hout]; cases s <;> simp
    unfold RelativeDepth
    rw [this, if_pos ht]; simp
  have := h1 (a, s)
  rwa [(term_linear hg hs hp (a, s) hr).1, mul_one, hBa] at this

/-- **C21.** It does not decrease outwards: from a point to another one that is not further from the edge on any side in the boundary of which
the first point is. -/
theorem C21_monotone_partial {grid : Obj n K} {thickness kappaMax : Fin n → Bool → K} (hg : Plain grid)
    (hs : ∀ a, 0 < grid.step a) {p q : Fin n → K} (hp : OnGrid grid p) (hq : OnGrid grid q) (h0 : ∀ a s, 0 ≤ kappaMax a s)
    (hout : ∀ a s, (axisOf grid a).fromEdge s (p a) < thickness a s →
      (axisOf grid a).fromEdge s (q a) ≤ (axisOf grid a).fromEdge s (p a)) :
    ∃ kp kq, extinction (linear grid thickness kappaMax) p = .ok kp ∧ extinction (linear grid thickness kappaMax) q = .ok kq ∧
      kp ≤ kq := by
  obtain ⟨kp, hkp, -, -, hp2⟩ := extinction_spec (b := linear grid thickness kappaMax) hg hp
  obtain ⟨kq, hkq, hq0, hq1, -⟩ := extinction_spec (b := linear grid thickness kappaMax) hg hq
  refine ⟨kp, kq, hkp, hkq, hp2 kq hq0 fun s => ?_⟩
  refine le_trans ?_ (hq1 s)
  obtain ⟨r, hr⟩ := relativeDepth_exists (axisOf grid s.1) (thickness s.1 s.2) s.2 (p s.1)
  obtain ⟨r', hr'⟩ := relativeDepth_exists (axisOf grid s.1) (thickness s.1 s.2) s.2 (q s.1)
  obtain ⟨he, -, -⟩ := term_linear (kappaMax := kappaMax) hg hs hp s hr
  obtain ⟨he', hr0', -⟩ := term_linear (kappaMax := kappaMax) hg hs hq s hr'
  rw [he, he']
  refine mul_le_mul_of_nonneg_left ?_ (h0 _ _)
  unfold RelativeDepth at hr hr'
  split_ifs at hr with h
  · have hpos : 0 < thickness s.1 s.2 :=
      lt_of_le_of_lt (by unfold Axis.fromEdge; split <;> exact abs_nonneg _) h
    have hqp := hout s.1 s.2 h
    rw [if_pos (hqp.trans_lt h)] at hr'
    rw [hr, hr']
    have := div_le_div_of_nonneg_right hqp hpos.le
    linarith
  · rw [hr]; exact hr0'

/-- **C21 is violated on axes with a negative step**: if all steps are negative a linear bound does not absorb at all. -/
theorem C21_negative_step_violates {grid : Obj n K} {thickness kappaMax : Fin n → Bool → K} (hg : Plain grid)
    (hs : ∀ a, grid.step a < 0) {p : Fin n → K} (hp : OnGrid grid p) (ht : ∀ a s, 0 ≤ thickness a s)
    (h0 : ∀ a s, 0 ≤ kappaMax a s) : extinction (linear grid thickness kappaMax) p = .ok 0 := by
  obtain ⟨kappa, hk, hn, -, h2⟩ := extinction_spec (b := linear grid thickness kappaMax) hg hp
  rw [hk]
  congr 1
  refine le_antisymm (h2 0 le_rfl fun s => ?_) hn
  unfold term
  split_ifs with hd
  · have : signedThickness (linear grid thickness kappaMax) s.1 s.2 ≤ 0 := by
      unfold signedThickness
      rw [show (linear grid thickness kappaMax).grid.step s.1 = grid.step s.1 from rfl, signK_neg' (hs _)]
      have := ht s.1 s.2
      simp only [linear]; linarith
    exact mul_nonpos_of_nonneg_of_nonpos (h0 _ _) (div_nonpos_of_nonneg_of_nonpos hd.le this)
  · exact le_rfl

/-! ### Examples -/

/-- Five samples at 0, 1, 2, 3, 4, or 4, 3, 2, 1, 0. -/
def exampleGrid (step : ℚ) : Obj 1 ℚ :=
  { shape := fun _ => 5, step := fun _ => step, center := fun _ => 2, dt := .float, flat := fun _ => false
    originAtCenter := fun _ => true, centerAtIndex := fun _ => true, multidimensional := true, stepShort := false }

theorem exampleGrid_plain (step : ℚ) : Plain (exampleGrid step) := ⟨rfl, fun _ => rfl, fun _ => by simp [exampleGrid]⟩

example : OnGrid (exampleGrid 1) ![1] := by
  intro a
  have : a = 0 := Subsingleton.elim _ _
  subst this
  exact ⟨1, by decide, by simp [axisOf, Axis.first, exampleGrid, firstSample, centerPos]⟩

example : [0, 1, 2, 3, 4].map (fun x => between (linear (exampleGrid 1) (fun _ _ => 2) (fun _ _ => 1)) ![x]) =
    [false, false, true, false, false] := by decide +kernel

example : [0, 1, 2, 3, 4].map (fun x => (extinction (linear (exampleGrid 1) (fun _ _ => 2) (fun _ _ => 1)) ![x]).toOption) =
    [some 1, some (1 / 2), some 0, some (1 / 2), some 1] := by decide +kernel

example : [0, 1, 2, 3, 4].map (fun x => (extinction (linear (exampleGrid (-1)) (fun _ _ => 2) (fun _ _ => 1)) ![x]).toOption) =
    [some 0, some 0, some 0, some 0, some 0] := by decide +kernel

end

/-! ### C22 -/

theorem sqrt_re_nonneg (z : ℂ) : 0 ≤ (z ^ (1 / 2 : ℂ)).re := by
  rcases eq_or_ne z 0 with rfl | h
  · simp
  · rw [Complex.cpow_def_of_ne_zero h, Complex.exp_re]
    refine mul_nonneg (Real.exp_pos _).le (Real.cos_nonneg_of_neg_pi_div_two_le_of_le ?_ ?_)
    · have := Complex.neg_pi_lt_arg z
      simp [Complex.mul_im, Complex.log_im, Complex.log_re]
      linarith
    · have := Complex.arg_le_pi z
      simp [Complex.mul_im, Complex.log_im, Complex.log_re]
      linarith

theorem sqrt_sq (z : ℂ) : (z ^ (1 / 2 : ℂ)) ^ 2 = z := by
  rw [← Complex.cpow_nat_mul]; simp

/-- **C22.** The susceptibility never adds gain. -/
theorem C22_no_gain (eps : ℂ) {kappa : ℝ} (hk : 0 ≤ kappa) : 0 ≤ (susceptibility eps kappa).im := by
  have h : susceptibility eps kappa = 2 * Complex.I * kappa * eps ^ (1 / 2 : ℂ) - kappa ^ 2 := by
    unfold susceptibility
    simp only
    linear_combination sqrt_sq eps + (kappa : ℂ) ^ 2 * Complex.I_sq
  rw [h]
  have := mul_nonneg hk (sqrt_re_nonneg eps)
  have e : (2 * Complex.I * (kappa : ℂ) * eps ^ (1 / 2 : ℂ) - (kappa : ℂ) ^ 2).im = 2 * (kappa * (eps ^ (1 / 2 : ℂ)).re) := by
    generalize eps ^ (1 / 2 : ℂ) = w
    simp [Complex.sub_im, Complex.mul_im, Complex.mul_re, pow_two]; ring
  rw [e]; linarith

/-- **C22.** The interior is unchanged. -/
theorem C22_interior (eps : ℂ) : susceptibility eps 0 = 0 ∧ permittivity eps 0 = eps := by
  have h : susceptibility eps 0 = 0 := by
    unfold susceptibility
    simp only [Complex.ofReal_zero, mul_zero, add_zero, sqrt_sq, sub_self]
  exact ⟨h, by rw [permittivity, h, add_zero]⟩

/-- **C22.** Background and susceptibility together are the square of the refractive index plus `i` times the extinction, where the refractive
index is the square root of the background permittivity with a non-negative real part. -/
theorem C22_square (eps : ℂ) (kappa : ℝ) :
    ∃ index : ℂ, index ^ 2 = eps ∧ 0 ≤ index.re ∧ permittivity eps kappa = (index + Complex.I * kappa) ^ 2 :=
  ⟨eps ^ (1 / 2 : ℂ), sqrt_sq eps, sqrt_re_nonneg eps, by unfold permittivity susceptibility; ring⟩

/-- **C22.** In particular in the bound of a simulation: at all points of the grid the extinction is non-negative, so nothing is
amplified, and the material is unchanged at all points between the boundaries. -/
theorem C22_bound {n : ℕ} {b : Absorbing n ℝ} (hg : Plain b.grid) {p : Fin n → ℝ} (hp : OnGrid b.grid p) (eps : ℂ) :
    ∃ kappa, extinction b p = .ok kappa ∧ 0 ≤ (susceptibility eps kappa).im ∧
      ((∀ a, 0 < b.grid.step a) → between b p = true → susceptibility eps kappa = 0) := by
  obtain ⟨kappa, hk, h0, -, -⟩ := extinction_spec hg hp
  refine ⟨kappa, hk, C22_no_gain eps h0, fun hs hb => ?_⟩
  have := C20_extinction_between_partial hg hs hp hb
  rw [hk] at this
  cases this
  exact (C22_interior eps).1

end Verif.Bound
