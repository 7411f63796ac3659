import Verif.Model.MatCache
import Verif.Spec.Mat
import Mathlib.Tactic.FieldSimp
import Mathlib.Tactic.Ring

/-!
# Lemmas about the caching of columns
-/

namespace Verif.Mat

open Verif.Spec.Mat

variable {K : Type} [Field K] [DecidableEq K] {n m : ℕ}

theorem mem_nonZeros (v : Vec K n) (i : Fin n) : i ∈ nonZeros v ↔ v i ≠ 0 := by
  simp [nonZeros]

theorem nonZeros_nil {v : Vec K n} : ¬ 0 < (nonZeros v).length ↔ v = fun _ => 0 := by
  constructor
  · intro h
    have h' : nonZeros v = [] := by
      cases hv : nonZeros v with
      | nil => rfl
      | cons a l => simp [hv] at h
    funext i
    by_contra hi
    have := (mem_nonZeros v i).2 hi
    simp [h'] at this
  · rintro rfl
    simp [nonZeros]

theorem nonZeros_single (i : Fin n) {a : K} (ha : a ≠ 0) : nonZeros (single i a) = [i] := by
  have h1 : nonZeros (single i a) = (List.finRange n).filter (fun j => j = i) := by
    unfold nonZeros
    congr 1
    funext j
    by_cases hj : j = i <;> simp [single, hj, ha]
  rw [h1]
  have hnd : ((List.finRange n).filter (fun j => j = i)).Nodup := (List.nodup_finRange n).filter _
  have hmem : ∀ j, j ∈ (List.finRange n).filter (fun j => j = i) ↔ j = i := by simp
  cases hl : (List.finRange n).filter (fun j => j = i) with
  | nil => have := (hmem i).2 rfl; simp [hl] at this
  | cons b l =>
    rw [hl] at hmem hnd
    have hb : b = i := (hmem b).1 (by simp)
    subst hb
    cases l with
    | nil => rfl
    | cons c l =>
      have hc : c = b := (hmem c).1 (by simp)
      subst hc
      simp at hnd

theorem basisIndex_some {c : Cache K m n} {v : Vec K n} {i : Fin n} (h : basisIndex c v = some i) :
    c.caching = true ∧ v = single i (v i) ∧ v i ≠ 0 := by
  unfold basisIndex at h
  split at h
  · rename_i hc
    refine ⟨hc.1, ?_⟩
    obtain ⟨b, hb⟩ := List.length_eq_one_iff.1 hc.2
    rw [hb] at h
    simp only [List.head?_cons, Option.some.injEq] at h
    subst h
    have hne : v b ≠ 0 := (mem_nonZeros v b).1 (by simp [hb])
    refine ⟨?_, hne⟩
    funext j
    unfold single
    split
    · rename_i hj; rw [hj]
    · rename_i hj
      by_contra h0
      have := (mem_nonZeros v j).2 h0
      rw [hb] at this
      simp at this
      exact hj this
  · simp at h

theorem basisIndex_single (c : Cache K m n) (hc : c.caching = true) (i : Fin n) {a : K} (ha : a ≠ 0) : basisIndex c (single i a) = some i := by
  simp [basisIndex, nonZeros_single i ha, hc]

/-- The cached columns are those of the operator. -/
def Consistent (f : Vec K n → Vec K m) (c : Cache K m n) : Prop := ∀ i column, c.columns i = some column → column = f (single i 1)

theorem lookup_some {c : Cache K m n} {v : Vec K n} {i : Fin n} {column : Vec K m} (h : c.lookup v = some (i, column)) :
    basisIndex c v = some i ∧ c.columns i = some column := by
  unfold Cache.lookup at h
  split at h
  · split at h
    · rename_i j hj
      simp only [Option.map_eq_some_iff] at h
      obtain ⟨col, h1, h2⟩ := h
      simp only [Prod.mk.injEq] at h2
      obtain ⟨rfl, rfl⟩ := h2
      exact ⟨hj, h1⟩
    · simp at h
  · simp at h

theorem lookup_value {f : Vec K n → Vec K m} (hf : BasisHomogeneous f) {c : Cache K m n} (hc : Consistent f c) {v : Vec K n} {i : Fin n} {column : Vec K m}
    (h : c.lookup v = some (i, column)) : (fun r => column r * v i) = f v := by
  obtain ⟨h1, h2⟩ := lookup_some h
  obtain ⟨-, h3, -⟩ := basisIndex_some h1
  rw [hc i column h2]
  conv_rhs => rw [h3]
  funext r
  rw [hf.2 i (v i) r, mul_comm]

theorem calculate_consistent {f : Vec K n → Vec K m} (hf : BasisHomogeneous f) {c : Cache K m n} (hc : Consistent f c) (v : Vec K n) :
    Consistent f (c.calculate f v).2 := by
  intro i column h
  unfold Cache.calculate at h
  simp only at h
  cases hj : basisIndex c v with
  | some j =>
    simp only [hj] at h
    split at h
    · obtain ⟨-, h3, h4⟩ := basisIndex_some hj
      by_cases hij : i = j
      · subst hij
        simp only [Function.update_self, Option.some.injEq] at h
        rw [← h]
        funext r
        rw [h3, hf.2 i (v i) r]
        have : single i (v i) i = v i := by simp [single]
        rw [this, mul_div_assoc, mul_comm, div_mul_cancel₀ _ h4]
      · rw [Function.update_of_ne hij] at h
        exact hc i column h
    · exact hc i column h
  | none =>
    simp only [hj] at h
    exact hc i column h

theorem product_spec {f : Vec K n → Vec K m} (hf : BasisHomogeneous f) {c : Cache K m n} (hc : Consistent f c) (v : Vec K n) :
    (c.product f v).1 = f v ∧ Consistent f (c.product f v).2 := by
  unfold Cache.product
  split
  · split
    · exact ⟨rfl, calculate_consistent hf hc v⟩
    · rename_i i column h
      exact ⟨lookup_value hf hc h, hc⟩
  · rename_i h
    rw [nonZeros_nil] at h
    subst h
    exact ⟨funext fun r => (hf.1 r).symm, hc⟩

theorem matvec_spec {f : Vec K n → Vec K m} (hf : BasisHomogeneous f) (vs : List (Vec K n)) : ∀ {c : Cache K m n}, Consistent f c →
    (c.matvec f vs).1 = vs.map f ∧ Consistent f (c.matvec f vs).2 := by
  induction vs with
  | nil => intro c hc; exact ⟨rfl, hc⟩
  | cons v vs ih =>
    intro c hc
    obtain ⟨h1, h2⟩ := product_spec hf hc v
    obtain ⟨h3, h4⟩ := ih h2
    exact ⟨by simp only [Cache.matvec, List.map_cons, h1, h3], h4⟩

theorem loop_spec {f : Vec K n → Vec K m} (hf : BasisHomogeneous f) (vs : List (Vec K n)) : ∀ {c : Cache K m n}, Consistent f c →
    ∃ rs, (c.loop f true vs).1 = .ok (rs, true) ∧ rs.map (fun r => r.getD fun _ => 0) = vs.map f ∧ Consistent f (c.loop f true vs).2 := by
  induction vs with
  | nil => intro c hc; exact ⟨[], rfl, rfl, hc⟩
  | cons v vs ih =>
    intro c hc
    by_cases hv : 0 < (nonZeros v).length
    · cases hl : c.lookup v with
      | none =>
        obtain ⟨rs, h1, h2, h3⟩ := ih (calculate_consistent hf hc v)
        refine ⟨some (f v) :: rs, ?_, ?_, ?_⟩
        · simp only [Cache.loop, hv, hl, if_true]
          generalize Cache.loop f (c.calculate f v).2 true vs = p at *
          obtain ⟨p1, p2⟩ := p
          simp only at h1
          subst h1
          rfl
        · simp [h2]
        · simp only [Cache.loop, hv, hl, if_true]
          generalize Cache.loop f (c.calculate f v).2 true vs = p at *
          obtain ⟨p1, p2⟩ := p
          simp only at h1
          subst h1
          exact h3
      | some p =>
        obtain ⟨i, column⟩ := p
        obtain ⟨rs, h1, h2, h3⟩ := ih hc
        have hval := lookup_value hf hc hl
        refine ⟨some (f v) :: rs, ?_, ?_, ?_⟩
        · simp only [Cache.loop, hv, hl, if_true]
          generalize Cache.loop f c true vs = p at *
          obtain ⟨p1, p2⟩ := p
          simp only at h1
          subst h1
          rw [hval]
        · simp [h2]
        · simp only [Cache.loop, hv, hl, if_true]
          generalize Cache.loop f c true vs = p at *
          obtain ⟨p1, p2⟩ := p
          simp only at h1
          subst h1
          exact h3
    · obtain ⟨rs, h1, h2, h3⟩ := ih hc
      have hv0 := nonZeros_nil.1 hv
      refine ⟨none :: rs, ?_, ?_, ?_⟩
      · simp only [Cache.loop, hv, if_false]
        generalize Cache.loop f c true vs = p at *
        obtain ⟨p1, p2⟩ := p
        simp only at h1
        subst h1
        rfl
      · have : (fun _ => 0) = f v := by rw [hv0]; funext r; exact (hf.1 r).symm
        rw [List.map_cons, List.map_cons, h2, Option.getD_none, this]
      · simp only [Cache.loop, hv, if_false]
        generalize Cache.loop f c true vs = p at *
        obtain ⟨p1, p2⟩ := p
        simp only at h1
        subst h1
        exact h3

theorem cache_spec {f : Vec K n → Vec K m} (hf : BasisHomogeneous f) (vs : List (Vec K n)) {c : Cache K m n} (hc : Consistent f c) :
    (c.cache f vs true).1 = .ok (vs.map f) ∧ Consistent f (c.cache f vs true).2 := by
  obtain ⟨rs, h1, h2, h3⟩ := loop_spec hf vs hc
  unfold Cache.cache
  generalize c.loop f true vs = p at *
  obtain ⟨p1, p2⟩ := p
  simp only at h1
  subst h1
  exact ⟨by simp only [h2], h3⟩

end Verif.Mat
