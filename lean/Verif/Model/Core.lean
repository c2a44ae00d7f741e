import Verif.Num.FloatOps

/-!
# Model of `measures-core`

Traits become classes, `&mut`/`RefCell` state becomes a returned new state, panics become
`Except Panic`.
-/

namespace Verif
open FloatOps

/-- A Rust panic carried as data. -/
structure Panic where
  msg : String
deriving Repr, DecidableEq

/-- Model of `std::collections::HashMap` as used by the code (`get`, `insert`, `clear`, `extend`);
iteration order is not modelled. -/
structure FMap (K V : Type) where
  get : K → Option V

namespace FMap
variable {K V : Type}
/-- `HashMap::new()` / `clear()` -/
def empty : FMap K V := ⟨fun _ => none⟩
/-- `HashMap::insert` -/
def insert [DecidableEq K] (m : FMap K V) (k : K) (v : V) : FMap K V :=
  ⟨fun k' => if k' = k then some v else m.get k'⟩
/-- `HashMap::extend(other)`: entries of `other` override. -/
def extend (m other : FMap K V) : FMap K V :=
  ⟨fun k => match other.get k with
    | some v => some v
    | none => m.get k⟩
end FMap

/-! ### Measures -/

/-- `measures-core/src/core/measure.rs:5-28`: `MeasureMarker` and `Measure<T>`.
The two type-level booleans are Boolean fields; the associated type `RootMeasure` is a type field. -/
class Measure (M : Type) (T : outParam Type) where
  isPrimitive : Bool
  isExponentialFamily : Bool
  Root : Type
  inSupport : M → T → Bool
  rootMeasure : M → Root

/-- `measures-core/src/core/density.rs:314-322`: `HasLogDensity<T, F>`. -/
class HasLogDensity (M : Type) (T : outParam Type) (F : Type) where
  logDensityWrtRoot : M → T → F

export HasLogDensity (logDensityWrtRoot)

/-- `measures-core/src/core/measure.rs:37-47`: the blanket `Measure` implementation for primitive
measures: everything is in the support, the root is a clone of the measure. -/
@[reducible] def primitiveMeasure (M T : Type) : Measure M T where
  isPrimitive := true
  isExponentialFamily := false
  Root := M
  inSupport _ _ := true
  rootMeasure m := m

/-- `measures-core/src/primitive/lebesgue.rs:4-17`: zero-sized; the copy in
`measures-combinators/src/measures/primitive/lebesgue.rs:11-30` is the same code. -/
structure LebesgueMeasure (T : Type) where
deriving Repr

/-- `measures-core/src/primitive/counting.rs:4-17`: zero-sized; the copy in
`measures-combinators/src/measures/primitive/counting.rs:11-30` is the same code. -/
structure CountingMeasure (T : Type) where
deriving Repr

instance {T} : Measure (LebesgueMeasure T) T := primitiveMeasure _ _
instance {T} : Measure (CountingMeasure T) T := primitiveMeasure _ _

/-- `measures-core/src/primitive/lebesgue.rs:25-31` -/
instance {T F} [FloatOps F] : HasLogDensity (LebesgueMeasure T) T F where
  logDensityWrtRoot _ _ := zero
/-- `measures-core/src/primitive/counting.rs:25-31` -/
instance {T F} [FloatOps F] : HasLogDensity (CountingMeasure T) T F where
  logDensityWrtRoot _ _ := zero

/-! ### `LogDensity` builder -/

/-- `measures-core/src/core/density.rs:134-147`: the builder struct `LogDensity<T, M, B>`
(phantom data dropped).  `LogDensityTrait::measure` and `base_measure`
(`measures-core/src/core/density.rs:101-112, 206-212`) are the projections; the inherent `at`
(`measures-core/src/core/density.rs:189-194`) calls the trait method. -/
structure LogDensity (M B : Type) where
  measure : M
  base : B

namespace LogDensity
variable {M B B' T F : Type}

/-- `measures-core/src/core/density.rs:149-163` (`LogDensity::new`) and
`measures-core/src/core/measure.rs:50-58` (`LogDensityBuilder::log_density`, which clones). -/
def new [i : Measure M T] (m : M) : LogDensity M i.Root :=
  { measure := m, base := Measure.rootMeasure m }

/-- `measures-core/src/core/density.rs:172-178` -/
def wrt (l : LogDensity M B) (b : B') : LogDensity M B' :=
  { measure := l.measure, base := b }

/-- `measures-core/src/core/density.rs:243-312`: the four `ExpFamDispatch` implementations,
selected by the two `IsExponentialFamily` markers. -/
def dispatch [FloatOps F] [HasLogDensity M T F] [HasLogDensity B T F]
    (expFamM expFamB : Bool) (m : M) (b : B) (x : T) : F :=
  match expFamM, expFamB with
  | false, false => logDensityWrtRoot m x -. logDensityWrtRoot b x
  | false, true => logDensityWrtRoot m x -. logDensityWrtRoot b x
  | true, false => logDensityWrtRoot m x -. logDensityWrtRoot b x
  | true, true => logDensityWrtRoot m x -. logDensityWrtRoot b x

/-- Memory layout of the builder: byte offset, size of the two fields and the struct size.
Rust leaves the order and offsets of `repr(Rust)` fields to the compiler; `Layout.Legal` (Spec)
says what the language guarantees. -/
structure Layout where
  offMeasure : ℕ
  sizeMeasure : ℕ
  offBase : ℕ
  sizeBase : ℕ
  size : ℕ

/-- `measures-core/src/core/density.rs:216-241` (`EvaluateAt::at`).  `addr` is the address of the
builder; the shortcut compares the two field addresses as thin pointers. -/
def evalAt [FloatOps F] [Measure M T] [Measure B T] [HasLogDensity M T F] [HasLogDensity B T F]
    (lay : Layout) (addr : ℕ) (l : LogDensity M B) (x : T) : F :=
  if addr + lay.offMeasure = addr + lay.offBase then zero
  else dispatch (Measure.isExponentialFamily M) (Measure.isExponentialFamily B)
        l.measure l.base x

end LogDensity

/-! ### Helper functions -/

/-- `measures-core/src/core/density.rs:472-478` -/
def logDensityAt {M T F : Type} [HasLogDensity M T F] (m : M) (x : T) : F := logDensityWrtRoot m x

/-- `measures-core/src/core/density.rs:481-490` -/
def logDensityBatch {M T F : Type} [HasLogDensity M T F] (m : M) (xs : List T) : List F :=
  xs.map (fun x => logDensityWrtRoot m x)

/-- `measures-core/src/core/density.rs:424-455`: `SharedRootMeasure for (M1, M2)`. -/
def logDensityWrtSharedRoot {M1 M2 T F : Type} [FloatOps F] [HasLogDensity M1 T F]
    [HasLogDensity M2 T F] (p : M1 × M2) (x : T) : F :=
  logDensityWrtRoot p.1 x +. logDensityWrtRoot p.2 x

/-! ### `CachedLogDensity` -/

namespace Cached
variable {T F : Type} [DecidableEq T]

/-- `measures-core/src/core/density.rs:325-387` (`CachedLogDensity::at`): the cache is the
`RefCell<HashMap<T, F>>`; the third component says whether the wrapped density was evaluated. -/
def evalAt (inner : T → F) (cache : FMap T F) (x : T) : F × FMap T F × Bool :=
  match cache.get x with
  | some v => (v, cache, false)
  | none =>
    let v := inner x
    (v, cache.insert x v, true)

/-- A history of `at` calls on one `CachedLogDensity`, starting from a given cache: the returned
values and the points at which the wrapped density was evaluated, in order. -/
def run (inner : T → F) : FMap T F → List T → List F × List T
  | _, [] => ([], [])
  | c, x :: xs =>
    let (v, c', called) := evalAt inner c x
    let (vs, evs) := run inner c' xs
    (v :: vs, if called then x :: evs else evs)

/-- `measures-core/src/core/density.rs:343-350` (`CachedLogDensity::new`). -/
def new : FMap T F := FMap.empty

end Cached

/-! ### Structured decomposition -/

/-- `measures-core/src/core/log_density_decomposition.rs:29-67`; descriptions are dropped. -/
structure Decomposition (X Θ F : Type) where
  dataTerms : List (X → F)
  paramTerms : List (Θ → F)
  mixedTerms : List (X → Θ → F)
  constantTerms : List F

namespace Decomposition
variable {X Θ F : Type}

/-- `measures-core/src/core/log_density_decomposition.rs:70-80`, `default` 227-229; the builder
(`measures-core/src/core/log_density_decomposition.rs:246-292`) wraps a decomposition: its `new`,
`default` and `build` add nothing, its other methods are the ones below. -/
def new : Decomposition X Θ F := ⟨[], [], [], []⟩
/-- `log_density_decomposition.rs:83-89`, builder `data_term` 253-258 -/
def addDataTerm (d : Decomposition X Θ F) (f : X → F) : Decomposition X Θ F :=
  { d with dataTerms := d.dataTerms ++ [f] }
/-- `log_density_decomposition.rs:92-98`, builder `param_term` 261-266 -/
def addParamTerm (d : Decomposition X Θ F) (f : Θ → F) : Decomposition X Θ F :=
  { d with paramTerms := d.paramTerms ++ [f] }
/-- `log_density_decomposition.rs:101-111`, builder `mixed_term` 269-274 -/
def addMixedTerm (d : Decomposition X Θ F) (f : X → Θ → F) : Decomposition X Θ F :=
  { d with mixedTerms := d.mixedTerms ++ [f] }
/-- `log_density_decomposition.rs:114-117`, builder `constant` 277-280 -/
def addConstant (d : Decomposition X Θ F) (c : F) : Decomposition X Θ F :=
  { d with constantTerms := d.constantTerms ++ [c] }

variable [FloatOps F]

/-- `log_density_decomposition.rs:200-205` -/
def evaluateParamTerms (d : Decomposition X Θ F) (θ : Θ) : F :=
  sum (d.paramTerms.map (fun f => f θ))

/-- `log_density_decomposition.rs:210-215` -/
def evaluateDataTerms (d : Decomposition X Θ F) (x : X) : F :=
  sum (d.dataTerms.map (fun f => f x))

/-- `log_density_decomposition.rs:219-223` -/
def constantSum (d : Decomposition X Θ F) : F := sum d.constantTerms

/-- `log_density_decomposition.rs:120-145` -/
def evaluate (d : Decomposition X Θ F) (x : X) (θ : Θ) : F :=
  let dataSum := sum (d.dataTerms.map (fun f => f x))
  let paramSum := sum (d.paramTerms.map (fun f => f θ))
  let mixedSum := sum (d.mixedTerms.map (fun f => f x θ))
  let constSum := sum d.constantTerms
  dataSum +. paramSum +. mixedSum +. constSum

/-- `log_density_decomposition.rs:151-195` -/
def evaluateIid (d : Decomposition X Θ F) (samples : List X) (θ : Θ) : F :=
  let n : F := FloatOps.ofNat samples.length
  let dataSum := sum (samples.map (fun x => sum (d.dataTerms.map (fun f => f x))))
  let paramSum := sum (d.paramTerms.map (fun f => f θ))
  let scaledParamSum := n *. paramSum
  let mixedSum := sum (samples.map (fun x => sum (d.mixedTerms.map (fun f => f x θ))))
  let constSum := sum d.constantTerms
  let scaledConstSum := n *. constSum
  dataSum +. scaledParamSum +. mixedSum +. scaledConstSum

end Decomposition

/-! ### Dot products -/

/-- `measures-core/src/traits/dot_product.rs:40-63`: both the array and the `Vec` version iterate
over the zip (which stops at the shorter operand).  `[T; N]` is modelled as a list of length `N`. -/
def dot {F : Type} [FloatOps F] (a b : List F) : F :=
  (a.zip b).foldl (fun acc p => acc +. p.1 *. p.2) zero

/-- `measures-core/src/traits/dot_product.rs:69-75` -/
def arraySub {F : Type} [FloatOps F] (a b : List F) : List F :=
  List.zipWith FloatOps.sub a b

end Verif
