import Verif.Num.Ieee

/-!
# Model of the numeric conversions, `measures-core/src/core/utils.rs`

The functions are generic over `num_traits` (0.2.19) traits; a numeric type is the dictionary of the
methods they use.  `Verif.Model.Convert` also models those dictionaries for the primitive integer
and floating types, from the documented behaviour of `num_traits` and of Rust's `as`.
-/

namespace Verif.Convert

/-- The methods of `ToPrimitive`, `FromPrimitive`, `Default` and `Float`/`NumCast` used by
`utils.rs`. -/
structure NumType where
  Val : Type
  /-- `ToPrimitive::to_f64` -/
  toF64 : Val → Option FVal
  /-- `FromPrimitive::from_f64`; for floats also `NumCast::from::<f64>` -/
  fromF64 : FVal → Option Val
  /-- `Default::default()` -/
  default : Val

/-- A primitive integer type. -/
structure IntTy where
  signed : Bool
  bits : ℕ

namespace IntTy
/-- `MIN` -/
def lo (t : IntTy) : ℤ := if t.signed then -(2 ^ (t.bits - 1)) else 0
/-- `MAX` -/
def hi (t : IntTy) : ℤ := if t.signed then 2 ^ (t.bits - 1) - 1 else 2 ^ t.bits - 1
/-- The values of the type. -/
def InRange (t : IntTy) (n : ℤ) : Prop := t.lo ≤ n ∧ n ≤ t.hi

def i8 : IntTy := ⟨true, 8⟩
def i16 : IntTy := ⟨true, 16⟩
def i32 : IntTy := ⟨true, 32⟩
def i64 : IntTy := ⟨true, 64⟩
def u8 : IntTy := ⟨false, 8⟩
def u16 : IntTy := ⟨false, 16⟩
def u32 : IntTy := ⟨false, 32⟩
def u64 : IntTy := ⟨false, 64⟩

/-- The integer types of at most 64 bits. -/
def all : List IntTy := [i8, i16, i32, i64, u8, u16, u32, u64]
end IntTy

/-- Truncation towards zero. -/
def trunc (q : ℚ) : ℤ := if 0 ≤ q then ⌊q⌋ else ⌈q⌉

/-- `num_traits` 0.2.19 `float_to_int_unchecked` guards: a double converts to an integer type when it
lies strictly between `MIN − 1` and `MAX + 1`; for 64-bit types the bounds are `MIN ≤ x < MAX + 1`
for signed and `−1 < x < MAX + 1` for unsigned types. -/
def floatToInt (t : IntTy) : FVal → Option ℤ
  | .fin q =>
    if t.signed && t.bits == 64 then
      (if (t.lo : ℚ) ≤ q ∧ q < (t.hi : ℚ) + 1 then some (trunc q) else none)
    else
      (if (t.lo : ℚ) - 1 < q ∧ q < (t.hi : ℚ) + 1 then some (trunc q) else none)
  | _ => none

/-- An integer type: `to_f64` is `as f64` (round to nearest even), `from_f64` the checked
truncation.  Values are integers; range conditions are stated where needed. -/
def intType (t : IntTy) : NumType where
  Val := ℤ
  toF64 n := some (Format.f64.round n)
  fromF64 := floatToInt t
  default := 0

/-- A floating type: both conversions are `as` casts and always succeed. -/
def floatType (f : Format) : NumType where
  Val := FVal
  toF64 x := some (Format.f64.convert x)
  fromF64 x := some (f.convert x)
  default := .fin 0

/-- `safe_convert`, `measures-core/src/core/utils.rs:9-19` -/
def safeConvert (T U : NumType) (value : T.Val) : U.Val :=
  match T.toF64 value with
  | some f64Val => (U.fromF64 f64Val).getD U.default
  | none => U.default

/-- `safe_convert_or`, `utils.rs:22-32` -/
def safeConvertOr (T U : NumType) (value : T.Val) (fallback : U.Val) : U.Val :=
  match T.toF64 value with
  | some f64Val => (U.fromF64 f64Val).getD fallback
  | none => fallback

/-- `safe_float_convert`, `utils.rs:35-49` -/
def safeFloatConvert (T U : NumType) (value : T.Val) : Except String U.Val :=
  match T.toF64 value with
  | some f64Val =>
    match U.fromF64 f64Val with
    | some result => .ok result
    | none => .error "Failed to convert to target float type"
  | none => .error "Failed to convert to f64 intermediate"

/-- The constants `T::zero()`, `T::one()`, … of a `Float` type. -/
structure FloatConsts (V : Type) where
  zero : V
  one : V
  infinity : V
  negInfinity : V
  nan : V

/-- `float_constant`, `utils.rs:54-74` -/
def floatConstant (T : NumType) (k : FloatConsts T.Val) (value : FVal) : T.Val :=
  (T.fromF64 value).getD
    (if value = .fin 0 then k.zero
     else if value = .fin 1 then k.one
     else if value = .inf false then k.infinity
     else if value = .inf true then k.negInfinity
     else if value = .nan then k.nan
     else k.zero)

end Verif.Convert
