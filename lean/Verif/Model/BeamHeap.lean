import Verif.Model.Beam

/-!
# Model of the arrays that python/macromax/utils/beam.py allocates, returns and overwrites

The model of `Model/Beam.lean` with references: the attribute `__field_ft` is a reference to an array, which `field_ft` returns and which some methods change in place.
-/

namespace Verif.Beam

open Verif.Fourier Complex

variable {o : Optics} {P : Projection}

/-- All arrays, the reference `__field_ft`, and `__propagation_relative_distance` (beam.py 73–75).  References up to `next` are in use. -/
structure Heap (o : Optics) (P : Projection) where
  cells : ℕ → Arr o P
  next : ℕ
  ref : ℕ
  distance : ℝ

/-- A new array. -/
def Heap.alloc (s : Heap o P) (F : Arr o P) : Heap o P := { s with cells := Function.update s.cells s.next F, next := s.next + 1 }

/-- An array is changed in place. -/
def Heap.set (s : Heap o P) (r : ℕ) (F : Arr o P) : Heap o P := { s with cells := Function.update s.cells r F }

open Classical in
/-- beam.py 245–257: `field_ft` changes the array in place (254), and returns the array itself (257). -/
noncomputable def Heap.readFt (s : Heap o P) : ℕ × Heap o P :=
  if |s.distance| ≤ 1e-8 then (s.ref, s)
  else (s.ref, { s.set s.ref (advance s.distance (s.cells s.ref)) with distance := 0 })

open Classical in
/-- beam.py 185–199: `field` returns a new array (195, 197), or `field_ft` (199). -/
noncomputable def Heap.read (s : Heap o P) : ℕ × Heap o P :=
  let (r, s) := s.readFt
  if o.Extended then (s.next, s.alloc (fieldOf (s.cells r))) else (r, s)

/-- beam.py 319–327 with a newly allocated array (224, 292 or 314). -/
noncomputable def Heap.update (s : Heap o P) (F : Arr o P) : Heap o P :=
  { s.alloc (Beam.update F).fieldFt with ref := s.next, distance := 0 }

open Classical in
/-- beam.py 201–228 -/
noncomputable def Heap.write (s : Heap o P) (f : Arr o P) : Heap o P :=
  if o.Extended then s.update fun c q => ft (f c) q * (starRingEnd ℂ) (o.shift q) else s.update f

/-- beam.py 259–294 -/
noncomputable def Heap.writeFt (s : Heap o P) (F : Arr o P) : Heap o P := s.update F

open Classical in
/-- beam.py 358–369: 367 changes the array that `field` returns in place, and assigns it to `field`; 369 changes `__field_ft` in place. -/
noncomputable def Heap.interact (s : Heap o P) (distance : ℝ) (n0 : ℂ) (n : Idx o.grid.shape → ℂ) : Heap o P :=
  if NearUniform n0 n then
    let deltaN := n0 / o.index - 1
    if ‖deltaN‖ ≤ 1e-8 then s else s.set s.ref fun c q => s.cells s.ref c q * exp (I * o.k * deltaN * distance)
  else
    let (r, s) := s.read
    let s := s.set r fun c x => s.cells r c x * exp (I * o.k * (n x / o.index - 1) * distance)
    s.write (s.cells r)

open Classical in
/-- beam.py 329–374 -/
noncomputable def Heap.propagate (h : ∀ a, 0 < o.grid.shape a) (s : Heap o P) (distance : ℝ) (n : Option (Idx o.grid.shape → ℂ)) : Heap o P :=
  let s := if distance < 0 then { s with distance := s.distance + distance } else s
  let s := (n.map fun n => s.interact distance (n (origin o h)) n).getD s
  if 0 < distance then { s with distance := s.distance + distance } else s

end Verif.Beam
