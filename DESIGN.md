# Design

Machine-checked model (Lean 4 + Mathlib) of the `measures` workspace, and proofs of the
properties listed in `properties.jsonl`. `MANIFEST.json` maps each property to theorem names.

## Layout

* `lean/Verif/Num/` — the numeric interface. `FloatOps F` mirrors what the Rust code uses of
  `num_traits::Float` / `f64`. `XReal` is the main instance.
* `lean/Verif/Model/` — the model of the Rust code, function by function, each definition
  citing file and lines.
* `lean/Verif/Spec/` — small independent specifications (what the English says).
* `lean/Verif/Lemmas/` — helper lemmas.
* `lean/Verif/Props/` — the property theorems, each followed by an `example` showing that the
  hypotheses are met by a concrete non-trivial case.

## Numbers

Model functions are polymorphic in a type `F` with `FloatOps F`. Theorems that do not depend on
arithmetic are proved for every such `F` (hence also for machine floats). Theorems about values use
one of two number types.

**`XReal`** (C01–C87, C104): NaN, −∞, +∞ and the real numbers, with the IEEE-754 rules for the special
values, *exact* arithmetic on reals, the real `log`, `exp`, … and a single zero. So:

* rounding, overflow to infinity, underflow, and the sign of zero are **not** modelled by `XReal`;
* NaN propagation, infinities, comparisons with NaN, `ln 0 = −∞`, `0·∞ = NaN`, `x/0 = ±∞` **are**.

`lnGamma` (crate `special`) is modelled as `log |Γ|` with Mathlib's `Real.Gamma`.

**`Flt f L`** (C88 onwards): IEEE-754 binary numbers of the format `f` (`f64` or `f32`), with
every sum, difference, product and quotient rounded to nearest, ties to even (`Format.round`),
including overflow to infinity and gradual underflow. The mathematical library `L` is a parameter;
`Libm.Accurate f L` (in `Spec/Double.lean`) is the only thing assumed of it, except that C100 and C101
also assume an accurate log-gamma (`Libm.GammaAccurate` in `Spec/DoubleGamma.lean`) and parts of C102 and C103 an accurate
`sqrt` (`Libm.SqrtAccurate` in `Spec/DoubleNatural.lean`) and C106 accurate squares (`Libm.SquareAccurate` in
`Spec/DoubleBayes.lean`); `exists_libm`, `exists_libm_gamma`, `exists_libm_sqrt` and `exists_libm_square` show that such libraries exist. The same polymorphic model functions are run at `Flt f L`, so the
accuracy theorems are about the same definitions as the exact ones. One simplification remains: `Flt`
has a single zero, so the sign of a zero and the sign of `1/0` computed from a negative zero are
not modelled.

**`Dual G`** (C120): pairs of a value and a derivative with the usual rules of forward-mode differentiation, for
`G = XReal`. Functions of the code that convert to `f64` and back (log-gamma, all of Student's t, the log-partition of
Beta) keep the value and lose the derivative; `Model/ViaF64.lean` and `Model/ViaF64Beta.lean` model the conversions.

**Bit level**: `Num/FloatBits.lean` and `Spec/IeeeBits.lean` describe the reinterpretation of an
`f64` as a 64-bit pattern used by the compiled `ln` and `exp` (C60–C62).

## Conventions

* A Rust panic is an explicit error value (`Except Panic`), never a hidden default.
* `Result`/`Option` stay data. `&mut self` becomes a returned new state.
* A `HashMap` is a finite map used through `get`/`insert`; its iteration order is not used.
* Closures are functions. Trait dispatch by type-level booleans is a Boolean argument.
* Threads interleave at lock operations.
* Where the code violates a property we prove the negation with a concrete witness
  (`..._violated`), and keep what does hold as a `_partial` theorem.

## Trusted base

* Lean's kernel, and the axioms `propext`, `Classical.choice`, `Quot.sound`. `AXIOMS.md` lists, for
  every theorem named in `MANIFEST.json`, exactly which of them it depends on (output of
  `#print axioms`). There is no `sorry`, no own axiom, no `native_decide`, `bv_decide`,
  `implemented_by` or `unsafe`.
* The faithfulness of the definitions in `Verif/Model` to the Rust source (by reading; the
  comments cite the lines).
* The numeric abstractions above.
* Assumptions about code outside the repository. Each is an explicit hypothesis or a parameter in
  the theorems that use it, and each has a proof that it can be met:

| assumption | where stated | used by |
|---|---|---|
| `format!("{x}")` of an `f64` is injective and has the documented shape | `Spec.RustDisplay` | C50, C51, C54, C78 |
| `{:?}` of a variable map determines the map | hypothesis of the theorem | C51 |
| `format!("{c:.1}")` prints the nearest multiple of 0.1 and `str::parse` reads it back | `PrintsRounded` in `Spec/Egglog.lean` | C56–C58 |
| the egglog engine: rules only add equalities, extraction returns an equal term | `Faithful` in `Spec/Egglog.lean` | C56, C58 (the fallback part of C58 holds for every engine) |
| Cranelift executes each instruction with its documented meaning; bit conversions are those of binary64 | `Model/Jit.lean`, `Faithful` in `Spec/IeeeBits.lean` | C59–C64, C74, C81 |
| calling a function through a pointer of another signature is undefined: the model gives it no value | `Compiled.invoke` in `Model/JitCall.lean` | C63, C74, C81 |
| `HashMap`/`HashSet` iteration order is arbitrary | parameter of the model | C81 |
| `num_traits` conversions round to nearest | `Model/Convert.lean` | C76, C92 |
| `ln` and `exp` of the platform are accurate to one unit in the last place | `Libm.Accurate` in `Spec/Double.lean` | C88–C95 and later accuracy theorems |
| `ln_gamma` of the `special` crate is within eight roundoffs of ln Γ relative to 1 + |ln Γ| | `Libm.GammaAccurate` in `Spec/DoubleGamma.lean` | C100, C101 |
| `powf(x, 2)` is accurate to one unit in the last place | `Libm.SquareAccurate` in `Spec/DoubleBayes.lean` | C106 |
| `ln`, `exp` and log-gamma return numbers of the format, infinities or NaN | `Libm.Closed` in `Props/DoubleSingle.lean` | C146 |
| `exp(0)=1`, `sin(0)=0`, `cos(0)=1` and `powf(x, 2)` is the rounded square | `Libm.ExactCases` in `Spec/DoubleExact.lean`, met by `exactLibm_exact` | parts of C127 |
| `ln` never decreases on the numbers of the format | `Libm.LnMonotone` in `Spec/DoubleMonotone.lean` | C111 (Cauchy, Student) |
| Bit conversions of generated code (`bitcast`, integer conversions) follow IEEE-754 and the Cranelift documentation | `Spec.Ieee.FaithfulDouble` in `Spec/IeeeDouble.lean` (met by `exists_faithful_double`) | C96, C109 |
| `sin`, `cos`, `sqrt` and `powf` (positive base, or natural exponent) are accurate to one unit in the last place | `Libm.AllAccurate` in `Spec/DoubleRunning.lean` | C108, C109 |
| `sqrt` is correctly rounded up to a factor two | `Libm.SqrtAccurate` in `Spec/DoubleNatural.lean` | C102, C103 (normal), C109 |
| nalgebra's `try_inverse` and `determinant` are exact | `LinAlg.Exact` in `Spec/MultiNormal.lean` (met by `exists_linAlg`) | C104 |
| Dual numbers follow the usual rules of forward-mode differentiation; comparisons look at the value only; conversion to `f64` keeps the value and conversion from `f64` has derivative zero (`num-traits` has no other choice) | `Num/Dual.lean`, `Model/ViaF64.lean` | C120 |
| programs that are generic in the interpreter are uniform in it (Rust generics) | programs are terms of an initial algebra | C65, C82 |
| Python reads the grammar given in `Spec/Python.lean` | that file | C78 |
| A LaTeX formula is read by the conventions given in `Spec/Latex.lean` | that file | C105 |
| a Gamma function given by the user is right (the shipped one panics) | `GammaCorrect` | parts of C67, C83 |


## Plan per property

| id | property | model and proof |
|---|---|---|
| C01 | Relative log-density is a difference of root log-densities | `LogDensity.at` modelled with the two field addresses as inputs; difference proved for all four dispatch arms and any number type when the addresses differ. |
| C02 | Log-density algebra: identity, antisymmetry, chain rule | Over `XReal` with finite root densities, from C01; antisymmetry and chain rule fail for a zero-sized base at the address of the measure (`C02_violated`). |
| C03 | wrt replaces only the base and the last wrt wins | Builder modelled as a record; list-fold over a chain of `wrt` calls, induction. |
| C04 | The same-object shortcut never changes the answer | Struct layout modelled (offset, size, alignment, disjointness). Two non-zero-sized fields never share an address; with a zero-sized base the shortcut can fire wrongly: partial + witness. |
| C05 | Cached log-density is transparent | State machine over histories; invariant 'every cached entry is inner(x)' by induction; evaluation log is duplicate free. |
| C06 | Batch log-density is pointwise | `List.map`; pointwise statement. |
| C07 | Structured decomposition evaluates to the sum of its terms and its IID form to the sum over the data | Terms are lists of functions; sums by induction on data. |
| C08 | Shipped decompositions agree with the log-density | Over `XReal` finite inputs. |
| C09 | Normal: log-density is the logarithm of the Gaussian density and integrates to one | Over `XReal`; compared with Mathlib `gaussianPDFReal`; integral from Mathlib. |
| C10 | Exponential: density, support and normalisation | Compared with the elementary formula and Mathlib's exponential pdf; integral by Mathlib. |
| C11 | Gamma: density, support and normalisation | Compared with Mathlib `gammaPDFReal`; `lnGamma` is modelled as log of Mathlib's `Real.Gamma`. |
| C12 | Beta: density, support and normalisation | Beta integral through Mathlib's Beta function. |
| C13 | Chi-squared is Gamma(k/2, 1/2) | Equality of the two models, for all k. |
| C14 | Cauchy: density and normalisation | Mathlib's arctan integral. |
| C15 | Student-t: density, Cauchy special case and normalisation | Formula and Cauchy special case; normalisation through the Beta integral. |
| C16 | Bernoulli: probability mass function | Finite sum. |
| C17 | Geometric: probability mass function | Geometric series. |
| C18 | Poisson: probability mass function | Exponential series; loop by induction. |
| C19 | Categorical: probability mass function | Induction over the vector. |
| C20 | Binomial: probability mass function | The code omits the coefficient in `log_density_wrt_root`: negation with witness; the exponential-family path is proved correct. |
| C21 | Negative binomial: probability mass function | The code's two paths disagree: negation with witness; what each path computes is proved. |
| C22 | Constructors accept exactly the valid parameters | Constructors return `Except`; iff statements over `XReal` including NaN and infinities. |
| C23 | Support agrees with density | Per distribution over `XReal`. |
| C24 | Exponential-family form agrees with the log-density | Per distribution; fails for Exponential (sign of A), Geometric (shift), Negative binomial, Binomial: witnesses. |
| C25 | Natural-parameter round trip | Per distribution. |
| C26 | The log-partition function normalises the family | Per distribution, from C24 style integrals. |
| C27 | Reported moments are the moments of the reported density | Per distribution, Mathlib integrals/series. |
| C28 | IID log-density is the sum of the individual log-densities | Induction on the sample list over `XReal` finite parts and over any commutative structure. |
| C29 | IID support is pointwise and its base measure is the product | Induction. |
| C30 | Sufficient-statistic sums and dot products are linear | Induction over lists and dimension. |
| C31 | Zero-overhead generated closures agree with direct evaluation | Closures modelled as functions; equality for all x. |
| C32 | Product measure: densities add, supports intersect, mass multiplies | Nested products as binary trees; Fubini for mass. |
| C33 | Pushforward obeys the change-of-variables formula | Derivatives and Mathlib change of variables. |
| C34 | Mixture density is the weighted sum of densities | Induction over components over `XReal`. |
| C35 | log-sum-exp never exponentiates a positive number and is bounded by max and max + ln n | Induction over lists. |
| C36 | Mixture constructors validate and normalise | iff statements. |
| C37 | Transformation Jacobians are correct | The code returns constants: negation with witness plus the case where it is right. |
| C38 | log_factorial is accurate for every k | Telescoping with Stirling's formula from Mathlib; table by exact rational bounds on logarithms. |
| C39 | Binomial and negative-binomial coefficient measures | `Real.Gamma` at naturals. |
| C40 | Weighted and integral measures add their log-weights; Dirac and primitives are trivial | Direct. |
| C41 | Expression evaluation computes the mathematical value | Reference semantics as an independent relation; structural induction. |
| C42 | Evaluation depends only on the variables that occur | Structural induction. |
| C43 | Single-variable evaluation agrees with map evaluation | Structural induction. |
| C44 | Linear, polynomial and smart evaluation agree with plain evaluation | Structural induction. |
| C45 | Batch and grid evaluation are pointwise and fail iff a point fails | List induction. |
| C46 | Optimised batch evaluation agrees with batch evaluation | Fails with several variables (missing ones are read as 0): witness; proved for expressions over the single variable. |
| C47 | Simplification preserves value | Fails in general (sqrt(x*x) becomes x): witnesses; proved on the positive-base fragment. |
| C48 | Simplification terminates, never grows the expression and never introduces variables | Well-founded definition; structural induction. |
| C49 | Simplification is idempotent | Fails: witness. Partial: fragment. |
| C50 | Cached simplification is transparent under any history and interleaving | Small-step model of threads with lock-protected steps; invariant over all interleavings; key injectivity from C54; collision witness for non-identifier names. |
| C51 | Cached evaluation is transparent under any history and interleaving | Same. |
| C52 | Cache statistics count every call exactly once | Same machine with counters. |
| C53 | Parameter substitution commutes with evaluation | Structural induction. |
| C54 | The text form of an expression determines the expression | Unambiguity of the printed grammar by structural induction. |
| C55 | Expression builders denote the documented formulas | Evaluate the built trees. |
| C56 | Every e-graph rewrite rule is an identity | Each rule as a lemma over the reals with its domain; inconsistent rules exhibited. |
| C57 | The egglog text round trip preserves the expression | Printer and parser modelled on characters; round trip by induction; rounding witness. |
| C58 | Optimisation is total and falls back to the original | Engine as an arbitrary function. |
| C59 | Generated code computes the expression | Small SSA instruction set, builder state monad, executor; simulation by structural induction. |
| C60 | Inline exp is accurate over its range | Rational approximation bound on [0, ln 2] by exact polynomial inequalities; range reduction and scaling. |
| C61 | Inline ln is accurate over all positive normal numbers | Bit-vector split proved for all patterns; rational approximation bound on [1,2]. |
| C62 | Inline sin and cos error bounds | Taylor remainder. |
| C63 | Compiled functions are called with the arity they were compiled with | Case analysis over all lengths. |
| C64 | Custom log-density compilation binds the data variable | Fails when a parameter sorts before the data variable: witness; partial otherwise. |
| C65 | Interpreters of a final-tagless program agree | Initial-algebra model of programs; interpreters as folds. |
| C66 | Tagless exponential-family helpers denote the formulas | List induction. |
| C67 | Tagless distribution patterns are the log-densities | Per pattern; failing ones by witness. |
| C68 | Horner evaluation is polynomial evaluation | List induction. |
| C69 | Horner derivative is the derivative | Mathlib polynomial derivative. |
| C70 | from_roots vanishes exactly at the roots | List induction. |
| C71 | Symbolic Normal likelihood, prior and posterior denote log-densities | Evaluate the built trees. |
| C72 | Symbolic mixture likelihood denotes the mixture | List induction. |
| C73 | Hierarchical model expression | Evaluate the built tree. |
| C74 | Optimiser slots | State machine. |
| C75 | Automatic JIT registry | State machine. |
| C76 | Numeric conversions are value preserving | Conversions as parameters; case analysis. |
| C77 | Cached calls never block each other forever | The machine of C50: lock invariant, progress and a decreasing measure. |
| C78 | Python text means the expression | Python's expression grammar as an independent relation from text to trees; `-(x) ** 2` is a witness against; fragment without negated bases. |
| C79 | Operator overloads and fluent methods of expressions | Evaluate the built trees. |
| C80 | Static inline functions are the log-densities | Compared with the models behind C09 and C10. |
| C81 | Final-tagless compile entry points bind names to positions | The set's iteration order is a parameter; simulation of C59; witness with two orders. |
| C82 | The specialised interpreters agree with direct evaluation | Relational parametricity of programs, as in C65; the carrier is `Except Panic`. |
| C83 | Distribution functions of an interpreter return the quantity they are named after | Default formulas with `cdf`, Gamma and erf as parameters; the shipped blanket implementation panics: shown for every function, interpreter and argument. |
| C84 | value_and_grad returns the value and the derivative of the log-density | The code returns the value twice: proved for every number type; witness standard normal at 0. |
| C85 | A panic while filling the cache leaves the cached density usable | `RefCell` flag in the state, wrapped density as an interaction tree (return, panic, call back); induction over histories. |
| C86 | compile_jit of a distribution returns compiled code for its log-density | Case analysis: always an error. |
| C87 | The constant pool returns the last definition of each constant and orders constants by dependency | Induction over call sequences; the order is never filled. |
| C88 | Normal and Exponential log-densities are accurate in floating point | The polymorphic model run at a number type with correctly rounded IEEE operations and an accurate library; forward error analysis with an invariant (value, magnitude, number of roundoffs). |
| C89 | The Cauchy log-density is accurate in floating point | Same; witness where the square overflows. |
| C90 | The exponential-family path of Normal is accurate in floating point | Same error calculus as C88; witnesses for NaN and cancellation. |
| C91 | Joint log-densities of many samples are accurate in floating point | Induction over the samples on the running error of a left fold of rounded additions. |
| C92 | Mixture constructors accept valid weights in floating point | Error of the rounded weight sum against the tolerance; concrete roundings as witnesses. |
| C93 | Mixture log-densities never overflow or vanish in floating point | Running maximum, error of each exponential, relative error of the sum, logarithm; never overflows because the logarithm is below half a spacing at the end of the range. |
| C94 | Expression evaluation is accurate in floating point | Structural induction with the invariant `Within` (value, size, number of operations); operand of a finite result is finite; witnesses for overflow of combined coefficients and for `ln(exp x)`. |
| C95 | The polynomial, inner-product and log-sum-exp helpers are accurate in floating point | Same invariant over coefficient lists; error of `1+exp(x)`; witnesses at 1000 and -50. |
| C96 | The functions of compiled code are accurate in double precision | `FaithfulDouble` (bit conversions with rounded arithmetic, shown to exist), absolute-error calculus `Appr` for every instruction, range reduction with its rounding, Lipschitz bound of the rational approximation, the exact-arithmetic bounds of C60-C62. |
| C97 | Roots are reference measures, and the log-density without a base is the one with respect to the root | Measure class with its instances; per-instance computation and a generic theorem about the builder; IsReference as specification. |
| C98 | The joint log-density with respect to a shared root is the sum | Algebra of extended reals; a Gaussian integral for the remark on normalisation. |
| C99 | Compilation statistics describe the compiled function | Number of instructions appended by each generator (`Grows`, `AtMost`), induction on the expression; witnesses exp(x), 2x. |
| C100 | The Gamma, chi-squared, Beta and Student-t log-densities are accurate in floating point | Error calculus `App` on top of C88; perturbed arguments of log-gamma by log-convexity (Bohr-Mollerup); Stirling bounds for the overflow witness. |
| C101 | The log-masses of the discrete distributions are accurate in floating point | Calculus `App` of C100; integers up to 2^prec are exact; fold bound of C92 for the Poisson log-factorial; Stirling and table bounds of C39 for log_factorial. |
| C102 | Distributions built from natural parameters in floating point have the right parameters | Relative errors of exp, of the rounded normaliser and of the quotient; sum of the rounded probabilities against the tolerance; square root by a Lipschitz bound. |
| C103 | Converting to natural parameters and back keeps the distribution in floating point | Error of `to_natural` composed with the theorems of C102; one is subtracted exactly from numbers between 1/2 and 2^prec; witnesses where the subtraction from one loses the parameter. |
| C104 | The multivariate normal distribution is the Gaussian law with the given mean and covariance | Run-time sized vectors and matrices with size checks; nalgebra's inverse and determinant are parameters assumed exact. Completing the square gives the textbook density; an affine change of variables from independent standard normals identifies it with Mathlib's multivariateGaussian. |
| C105 | The LaTeX text of an expression means that expression | A grammar of LaTeX formulas with implicit multiplication, independent of the printer; a deterministic parser shows that it is unambiguous; joint structural induction on how the printed text parses alone, behind a plus sign and behind a multiplication sign. |
| C106 | Bayesian model expressions keep their accuracy in floating point | Instance of the expression model at floating-point numbers; error analysis of each step with powf(.,2) assumed accurate; mixture by perturbing every exponent and the C95 summation bound; concrete doubles for the two failures. |
| C107 | The expr! macro builds the expression that is written | Macro arms as a function on lists of token trees; grammar with levels as an inductive relation; inversion of a reading for each accepted shape. |
| C108 | Rounding errors propagate through expressions by the textbook rules | Spec: exact value, propagated error and conditioning as recursive functions on expressions; one numerical lemma per operator; the shortcuts of evaluate shown to compute the plain operations; induction on the expression. |
| C109 | Compiled functions stay close to the exact value of the expression | Spec: error bound and conditioning for generated code as recursive functions on expressions; the accuracy lemmas of C96 for the inline approximations and the step lemmas of C108; induction on the expression over the value that C59 says the code computes. |
| C110 | Relative log-densities are accurate, antisymmetric and consistent in floating point | Relative log-density of C01 at Flt; exactness by a Sterbenz lemma (a difference of two numbers of the format not larger than either is in the format), antisymmetry by cases on the special values, accuracy by one rounding step. |
| C111 | Computed log-densities never prefer the less likely of two points | Monotonicity lemmas for every operation on FVal (rounding is monotone), composed along the formulas; witness computation for the exponential-family path. |
| C112 | Log-densities at NaN, at infinities and outside the support | Support test and density branch of each distribution compared in any arithmetic; propagation of NaN and infinities by cases on FVal. |
| C113 | Distributions related in theory return the same log-densities | Closed forms of both sides compared; pushforward with the affine map and its Jacobian. |
| C114 | The posterior expression of a normal model is the textbook posterior | Induction over the observations: likelihood times belief is predictive density times updated belief (completing the square); Gaussian integral from Mathlib. |
| C115 | The summed statistics are sufficient | Fisher-Neyman factorisation: each term is affine in the statistic; induction over the sample. |
| C116 | The joint log-density is largest at the textbook estimate | ln t <= t - 1 with equality only at 1, applied to the closed form of the joint log-density. |
| C117 | Products, weights and transformed measures in floating point | One rounding per combination; for pushforwards C88 at the rounded preimage plus the sensitivity of the exact log-density. |
| C118 | Reported means and variances are accurate in floating point | Multiplicative relative error of positive quantities, operation by operation; overflow witnesses by evaluation. |
| C119 | Final-tagless programs in floating point: accuracy, and agreement of direct and compiled evaluation | Induction on the recorded computation with the steps of C108; the recorded computation has the compiled value of its tree, so C109 applies; C65 links the two runs of the program. |
| C120 | Log-densities can be differentiated by running them on dual numbers | The model is run at dual numbers over the extended reals; a dual number tracks a curve when it carries its value and derivative; one lemma per operation, then the density formula of C09-C21 in a neighbourhood. |
| C121 | Single precision where the library computes in double precision | Widening is exact because every number of the small format is one of the large; narrowing adds one rounding to the bounds of C100 and C101. |
| C122 | Relative log-densities are logarithms of Radon-Nikodym derivatives | The measure with density exp(log-density) is built with Mathlib's withDensity; the chain rule for densities gives the derivative, Jensen/Gibbs the sign of the divergence; closed forms for Normal, Exponential and Poisson. |
| C123 | Derivatives of the log-partition are the moments of the sufficient statistic | The moment generating function of the statistic under the distribution at eta is exp(A(eta+s v)-A(eta)) because the distribution at eta+s v has mass one; Mathlib's theorem that cumulant generating functions are analytic gives both derivatives. Families where it fails: derivative and mean computed and compared. |
| C124 | Combinators denote the operations on measures | Laws are measures given by densities (Spec/RadonNikodym, Spec/Joint). Densities multiply, add or change variables as in C31-C34; Mathlib's product, sum, map and pi measures are compared on measurable sets; the n-fold product by induction on n (Tonelli). |
| C125 | Sums of independent draws have the textbook distribution | Laws of n independent draws are product measures (C124). The moment generating function of a sum is the product of those of the terms, each from the log-partition (C118), and two laws with the same finite moment generating function near 0 are equal (Mathlib: ext_of_mgf_eq). The minimum of exponentials by tails. |
| C126 | The law of a distribution determines its parameters | Equal laws have almost everywhere equal densities; then mean and variance agree (C27) and determine the parameters. Cauchy and Student t have no moments: their densities are continuous, so they agree everywhere, and values or derivatives at a few points determine the parameters. Discrete: point masses. |
| C127 | In floating point, evaluators and simplifier return the identical number | Spec.Steps is the evaluation in which every operation is rounded and none is skipped. Induction over it: the shortcuts for 0 and 1 are exact because operands are numbers of the format, the rewriting rules of simplify likewise (2*x rounds as x+x does). |
| C128 | A small change of a parameter changes every probability only a little | Spec.Close: every event has probabilities within eps. Pointwise continuity of the densities in the parameters, then Scheffe's lemma (Lemmas/Scheffe.lean) along the neighbourhood filter. |
| C129 | The limit theorems between the families hold | Scheffe's lemma along the parameter sequences. Pointwise limits: binomial coefficients as powers over factorials, (1+t/n)^n; for Student the ratio of Gamma functions a half apart by log-convexity. Geometric: distribution function in closed form. |
| C130 | A finite point never has log-density NaN or plus infinity | Spec.AtMost: minus infinity or a finite number below a bound. Closed under addition and under subtracting non-negative values by monotone rounding; the sum over any list stays below 2^(k+prec) because adding 2^k there rounds back. Gamma functions by Stirling's bound. |
| C131 | Updating a belief with data gives the textbook posterior | Spec.IsPosterior: density of the prior times likelihood is evidence times density of the posterior, and the evidence is its integral. Pointwise identity of logarithms on the support, total mass one of the posterior (C11, C12, C09) for the integral; normal means by the one-step identity of C114. |
| C132 | The joint log-likelihood is strictly concave in the natural parameters | Spec.ConcaveInNatural. Core lemma mix_const: the geometric mean of two densities has mass at most one (pointwise convexity of exp, integrated), equal to one only if the densities agree almost everywhere; with C126 this gives strictness. Natural forms of C123 and round trips of C25 give the point between; binomial and negative binomial from the Bernoulli case. |
| C133 | Which densities are log-concave, and so have a single peak | Spec/LogConcave.lean states log-concavity on the line by weighted geometric means of density values (so zeros off the support are included) and for counts by products of probabilities. Props/LogConcave.lean reduces it to concavity of the logarithm on a convex support; the exact ranges come from the points 1,2,3 for gamma and chi-squared and from points tending to the end of the interval for beta. Counts by decreasing ratios of neighbours. Log and logit pushforwards by convexity of exp and of log(1+exp). |
| C134 | Larger parameters mean larger draws: monotone likelihood ratios | Likelihood-ratio order written without division, so that points of density 0 are covered; characterised by the difference of log-densities on a common support, whose derivative must be nonnegative. Dominance by integrating the order over an upper set times its complement. |
| C135 | Distribution functions, waiting times and tails | law is the measure with the density the code returns; probabilities of half-lines from antiderivatives (fundamental theorem on half-lines), of sets of counts from finite sums; the dualities by differentiating the finite sums or by induction on the number of failures. |
| C136 | Entropy and the distributions of maximal entropy | Spec/Entropy.lean defines cross entropy and entropy as expectations of minus the log-density under the law. Gibbs' inequality follows from the divergence theorem of C122; closed forms from the moments (C27), the cumulants of the sufficient statistics (C123, derivative of the log-partition) and, for the Cauchy, the integral of ln cos; maximality by comparing the cross entropy with the bound; products from C124, affine maps from C124. |
| C137 | Different expressions for the same measure have the same log-density | Two measures are the same at a point when their log-densities there are the same value (Spec/Algebra.lean, which also gives mixtures by lists of pairs). Pushforwards by direct computation of the composed inverse and the added Jacobians, with no hypothesis on the base; mixtures by C34 and injectivity of the density on proper values, nested mixtures by induction on the outer list; relative densities by C01 and case analysis on infinite values. |
| C138 | Drawing a parameter first and then a value gives the textbook distribution | AveragesTo (Spec/Compound.lean): the lower integral of the conditional density against the law of the prior is the density of the marginal. For conjugate pairs the integral is the evidence of C131 and the posterior has mass one; for counts the sum is shifted and compared with the exponential series or the mass of the other part; the Beta fraction by translation invariance. |
| C139 | With more and more observations a belief settles at the parameter value behind them | Each conjugate update gives the n-th belief as a Beta, Gamma or normal law (C131) whose mean converges and whose variance tends to zero when the average of the observations converges; Chebyshev's inequality turns that into concentration. Almost-sure convergence of the average is Mathlib's strong law of large numbers with the means of C27. The exponential-family path of the exponential, geometric and negative binomial is refuted with its actual behaviour. |
| C140 | The joint log-density recognises which of two candidates produced the data | Model: iid_log_density and iid_log_density_fallback at reals and the laws of C122. Proof: the affinity (integral of the square root of the product of the two densities) is below one when the laws differ, so by Markov's inequality and independence the error probability is at most its n-th power; Borel-Cantelli gives the almost sure statement. Different parameters give different laws by C126. |
| C141 | Decisions by the relative log-density are optimal | Model: the relative log-density of C01, the joint log-densities and the laws of C122. Proof: Neyman-Pearson by integrating (indicator of the region minus the rule) times (first density minus e^t times the second), which is never negative; the one-sided form by the double integral of C134 applied to products of densities. |
| C142 | The order of the data and their division into batches | the fallback joint log-density as the left-to-right sum over the format; the stream law by unfolding, order and batches from the accumulated error bound of C91, exact cases because partial sums stay representable, impossible observations because minus infinity absorbs |
| C143 | The type-level markers for exponential families and primitive measures are right | Spec/Markers.lean states the exponential-family form with its own existential statistics. Marked families: explicit statistics. Cauchy and Student-t: more parameters than statistics give a linear combination of log-densities that is constant (rank-nullity); differentiating gives a rational identity, hence a polynomial with infinitely many roots, whose value at each pole shows the coefficients vanish. C143_violated: IID of a Cauchy. |
| C144 | Joint log-densities by the exponential-family path stay accurate for samples of any size | Error analysis of the sums of statistics with the approximation relation of Lemmas/App: each sum of n rounded terms, each product with a natural parameter and the multiple of the log-partition keeps a bounded number of roundoffs relative to the size of the terms; the real-number identity of the two forms of the joint log-density then gives the bound. One and two natural parameters are treated once (App.iid_one, App.iid_two); the log-partition of Bernoulli and binomial goes through the accuracy of softplus (C95) and its Lipschitz bound. |
| C145 | Reading an expression from egglog text ends and ignores surrounding white space | Fuel independence by induction on the bound, every recursive call being on a shorter text; trimming lemmas over the list of Unicode white-space code points in Spec/Whitespace.lean; the failure inside a text by evaluation of the model on a concrete text. |
| C146 | A sample of one: joint and single exponential-family values are the same number | Adding zero and multiplying by one are exact on values of the format; hence the three sums over one observation are the observation's own terms. Stated once for an arbitrary instance of the exponential-family trait and instantiated for each family by showing that its terms are values of the format. |
| C147 | The joint exponential-family value depends on the sample through its statistic, in floating point | the sum of counts below 2^prec is exact by induction, so the joint value is a function of size and total; the order bounds follow from C144 since the size of the terms and the sum of the true values do not depend on the order |
| C148 | The two ways to compute a joint log-density agree in floating point | both joint values are within a bound of the same real number (C144 for the exponential-family value; C91, C100, C101 and the accuracy of sums for the other); triangle inequality |
| C149 | Comparing parameters by computed joint log-likelihoods gives the true order up to rounding | comparison of two floating-point numbers that are each within a bound of a real number (C144) |
| C150 | The log-density and the exponential-family log-density of one observation agree up to rounding | C148 and C144 at a sample of one: the joint value of one observation is its exponential-family value (C146) and the sum over one observation is its log-density, both bit for bit; for the normal distribution the second value is bounded by C88. |

## What is modelled

| crate | model files | not modelled |
|---|---|---|
| measures-core | `Core`, `CoreExtra`, `Cache` | marker traits, `Debug`/`Default` derives |
| measures-distributions | `DistContinuous`, `DistDiscrete`, `DistExpr`, `Derived`, `MultiNormal` (`multivariate/multinormal.rs`, which `multivariate/mod.rs` comments out of the build) | — |
| measures-exponential-family | `ExpFam`, `JitCall`, `Tagless` | `Default` impls |
| measures-combinators | `Combinators`, `CoreExtra` | plain accessors of `TransformedMeasure` |
| measures-bayesian | `Bayesian`, `JitCall` | `Default` impl |
| symbolic-math | `Symbolic`, `Macro`, `Printing`, `Cache`, `Egglog`, `Jit`, `JitCall`, `Tagless` | elapsed times, source text and size statistics of compiled code; `Display` of error values; failures inside Cranelift |
| mathjit | `Tagless`, `Symbolic` | `Display`/`From` of error values; the newtype accessors of the operator wrapper |
| examples, benches, tests | — | not part of the library |

Also outside the model everywhere: running time, memory, machine stack depth (deep recursion is
total in the model but could overflow the stack in Rust), integer width of `usize`, and the
compile-time trait-resolution failures that prevent some combinations from type checking.

## Simplifications

* Arrays `[T; N]` and `Vec<T>` are lists. Where a length matters it is a hypothesis or a check that
  returns an explicit panic.
* `Rc<RefCell<..>>` of the cached density becomes a state that is threaded through; the borrow flag is
  explicit for C85. Mutexes of the expression cache are explicit in the interleaving machine of C50–C52
  and C77.
* Addresses compared by `std::ptr::eq` are inputs of the model, constrained only by a legal layout.
* `f64::midpoint(a, b)` is `(a + b) / 2`. It is used only in `student_t.rs` with `b = 1`, where the two agree for every `a`: the sum overflows for no finite `a`, and halving a sum of at least one is exact.
* Accuracy theorems about the compiled `exp`, `ln`, `sin`, `cos` (C60–C62) bound the error of the
  approximation formula with exact arithmetic; C96 and C109 add the rounding inside the formula.

## Where the code disagrees with the property

Each item is a proved theorem `..._violated` with a concrete witness. The claims in `MANIFEST.json`
marked `partial` name both the part that holds and the witness.

* `C02_violated` — In general: when the compiler gives the zero-sized base the address of the measure in the builder of `Normal` with respect to Lebesgue measure, and no such coincidence in the builder with the roles exchanged, neither antisymmetry nor the chain rule (through Lebesgue measure, back to the same normal distribution) holds at the point 0, where all root log-densities are finite.
* `C04_zero_sized_base_violated` — In general: with a zero-sized base measure (every root measure of the library is zero-sized) there is a legal layout in which the two fields share an address; then `Normal(0,1).log_density().at(0)` returns 0 instead of `-½ ln 2π`.
* `C100_gamma_nan_violated` — Needs a bound on the sizes of the terms: with shape and rate `2^1020` the log-density at one, the mean, is NaN although the true value is a moderate number: both terms of the normalisation overflow.
* `C100_student_t_violated` — Needs a bound on the point: the log-density of Student's t with one degree of freedom at `2^600` is `-∞` although the true value is above `-1000`: the point is squared before the logarithm is taken.
* `C101_geometric_violated` — (geometric): the count in the bound is needed: with `p = 2^-60` the code computes `ln(1-p) = 0`, so at `2^53` the log-mass is off by more than `2^38` units of roundoff relative to the true value.
* `C102_overflow_violated` — Log-odds whose exponential exceeds the format make the Bernoulli and the two-category categorical constructor panic, although the probability is then next to one; a Poisson distribution gets an infinite rate.
* `C102_uniform_violated` — In single precision `Categorical::uniform(10)` panics.
* `C103_bernoulli_violated` — The natural parameter of a certain event is infinite, and `from_natural` panics on it; so is the round trip of a Bernoulli distribution with probability one.
* `C103_categorical_violated` — A categorical distribution whose last category has probability zero is accepted, but the round trip panics.
* `C103_geometric_violated` — In double precision the natural parameter of a geometric distribution with probability `2^-60` is zero, and no distribution built from it has a probability below `100 * 2^-60` (with a correctly rounded `exp 0 = 1` it panics).
* `C103_shape_violated` — The natural parameters of a gamma, beta or chi-squared distribution with shape `2^-60` do not describe a distribution any more: `from_natural` panics.
* `C104_nan_violated` — A negative variance is accepted and every log-density is NaN.
* `C104_not_positive_violated` — The constructor does not check that the matrix is positive definite. `-I` in the plane is accepted, and its "density" is unbounded.
* `C104_not_symmetric_violated` — A matrix that is not symmetric is accepted and the "density" does not integrate to one: with the rows `(1, 1)` and `(0, 1)` the integral is `2/√3`.
* `C104_support_violated` — A point of another dimension is reported to be in the support, although its log-density panics.
* `C105_difference_violated` — Nor does a difference that is subtracted: the text of `x - (y - z)` is `x - y - z`, which is read as `(x - y) - z`.
* `C105_double_superscript_violated` — The text of `(x^y)^z` is `x^{y}^{z}`, a double superscript, which has no reading.
* `C105_letter_e_violated` — The variable `e` raised to `x` is printed as the exponential of `x` is.
* `C105_long_name_violated` — A name of more than one letter is read as a product: the text of the variable `ab` is read as `a·b`.
* `C105_negated_base_violated` — Nor does the base of a power: the text of `(-x)^y` is `-(x)^{y}`, which is read as `-(x^y)`.
* `C105_sum_factor_violated` — A sum that is a factor gets no brackets: the text of `(x + y)·z` is `x + y \cdot z`, which is read as `x + (y·z)`.
* `C106_mixture_violated` — Fails for a mixture far from its components: `mixture_likelihood` with the single component `N(0, 1)` at the point `100`. Evaluation fails with the logarithm of a number that is not positive or, if the library rounds tiny exponentials up, gives a log-likelihood above `-1200`; it is below `-5000`. (The log-density of a mixture measure does not have this defect, `C93_normal_mixture`.)
* `C106_small_scale_violated` — Fails for small scales: for scale `2^-600` (about `2.4e-181`) and a point `1024` standard deviations from the mean, both ordinary doubles, the squares vanish. Evaluation fails with a division by zero or, if the library rounds tiny squares up, gives a log-density above `400`; the log-density is below `-500000`.
* `C107_refused_violated` — Formulas with two operations are refused although each of them has a reading: `x + y + z`, `(x + y) * z`, `2 * ln(x)`, `ln(x + y)` and `-ln(x)`.
* `C110_self_violated` — (self) fails off the support: the log-density of an Exponential with respect to itself at `-1` is NaN.
* `C111_exp_fam_violated` — Fails on the exponential-family path: with mean `2^27 + 1` and standard deviation one the point two standard deviations away gets a greater computed log-density than the point one away.
* `C112_chi_squared_violated` — The same for the chi-squared distribution from two degrees of freedom on.
* `C112_gamma_violated` — Fails for the Gamma distribution: `+∞` counts as a point of the support, and from shape one on the log-density there is NaN, for every rate.
* `C113_zero_violated` — At zero the two pairs differ: the Exponential has its greatest density there, the Gamma and chi-squared distributions report density zero.
* `C116_exp_fam_violated` — Fails for `iid_log_density` of the exponential and geometric families, whose exponential-family form has a wrong normalisation (C24): for every nonempty exponential sample the value grows without a maximum as the rate goes to zero, and for every geometric sample it is largest at `1 / (1 + mean)` instead of `1 / mean`.
* `C116_negative_binomial_violated` — Fails for `iid_log_density` of the negative binomial: the value is largest at the average divided by `r` when that is below 1, instead of at `r` divided by `r` plus the average, and for larger averages it has no maximum.
* `C117_grouping_violated` — Grouping matters in floating point. Three copies of Lebesgue measure with log-weights `1, 3/2^26, 3/2^26`: in single precision the two ways of nesting the product return different numbers.
* `C118_overflow_violated` — Outside that range intermediate results overflow although the moment itself is an ordinary number: the variance of a Gamma distribution with shape `2^1000` and rate `2^600`, which is `2^-200`, is reported as zero, and the variance of a Beta distribution with both parameters `2^600` as NaN.
* `C120_beta_violated` — For the parameters of a Beta distribution.
* `C120_chi_squared_violated` — For the degrees of freedom of a chi-squared distribution.
* `C120_gamma_violated` — For the shape of a Gamma distribution: at shape 1, rate 1, point 1 the derivative of the log-density in the shape is Euler's constant, the dual number says 0.
* `C120_student_t_violated` — For Student's t: the whole log-density is computed in `f64`, so at every point other than 0 the derivative in the point is wrong, whatever the degrees of freedom. The value is right.
* `C123_chi_squared_violated` — Fails for chi-squared in the direction of the second natural parameter, which `from_natural` ignores: the derivative is zero where the mean is the number of degrees of freedom.
* `C123_exponential_violated` — Fails for every accepted exponential distribution: `from_natural(·).log_partition()` is `ln(-η)`, with derivative `-1/rate` at `η = -rate` where the mean is `1/rate`, and it is concave.
* `C123_geometric_violated` — Fails for every geometric distribution with `p < 1`: the derivative of the log-partition is `(1-p)/p` where the mean is `1/p`.
* `C123_std_normal_violated` — Fails for the standard normal, whose `from_natural` ignores its argument: the log-partition is constant, although the statistic `x²` has mean one.
* `C124_iid_violated` — Fails for Exponential through the exponential-family formula: on non-negative samples of size `n` the law has total mass `r^{-2n}` instead of `1`.
* `C126_categorical_violated` — Categories of probability zero at the end are not determined by the law.
* `C127_overflow_violated` — **C127 is violated for logarithms and for differences that overflow.** `ln(exp x)` at `x = 1000` is `+∞` and its simplification is 1000; `exp x - exp x` is NaN and its simplification is 0.
* `C127_rounding_violated` — **C127 is violated for logarithms even when nothing overflows.** With any accurate mathematical library, `ln(exp x)` at `x = 2^-60` is a number, but not the number its simplification `x` gives: the exponential rounds to one, or to a number whose logarithm is far larger.
* `C127_smart_violated` — **C127 is violated by the smart evaluator.** It collects coefficients before it inserts the value, so `(x + 1) - x` at `x = 2^53` is 1, while `evaluate` returns 0.
* `C128_binomial_violated` — **C128 is violated at both ends of the parameter range of the binomial distribution.** With probability zero or one the log-masses describe no distribution, whatever the number of trials: the whole space gets 0, and 1 for every probability in between.
* `C128_geometric_violated` — **C128 is violated at the end of the parameter range of the geometric distribution.** With probability one the log-masses describe no distribution: the whole space gets 0, and 1 for every smaller probability.
* `C130_binomial_violated` — At `p = 1` and at `p = 0` the log-mass of the certain outcome is NaN.
* `C130_geometric_violated` — At `p = 1` the log-mass of the only possible count is NaN.
* `C131_exponential_violated` — By the exponential-family joint log-density of the exponential distribution (C24): with at least one waiting time the posterior it leads to is `Gamma(a - n, b + Σ x)` instead of `Gamma(a + n, b + Σ x)`.
* `C132_exponential_violated` — Fails for the exponential distribution by the exponential-family formula: the sign of the log-partition makes the joint log-likelihood lie strictly below every chord.
* `C133_mixture_violated` — Does not survive mixing: the half-and-half mixture of two normals, both log-concave, is not.
* `C139_exponential_violated` — By the exponential-family joint log-density of the exponential distribution (C24): whatever the waiting times, the belief settles nowhere, because from some number of observations on Bayes' rule cannot be applied: prior times likelihood has no integral.
* `C139_waiting_violated` — By the exponential-family joint log-density of the geometric and the negative binomial distribution (C24): it takes the belief to the wrong value, from waiting times of average `m` to `1 / (1 + m)` and not `1 / m`, and from numbers of successes of average `m` to `m / r` and not `r / (r + m)`.
* `C140_violated` — Fails for `iid_log_density` of exponential data: whatever the data, the smaller of two rates is preferred; of geometric data: the probability `p / (1 + p)` is preferred to the true one, for every `p`; and for the sum of the log-densities of negative binomial distributions with different numbers of failures: whatever the data, the smaller number is preferred.
* `C141_violated` — Fails for two negative binomial distributions with the same probability and different numbers of failures: the relative log-density is the same negative number at every point, so the larger number is never decided for, and a better rule exists.
* `C143_violated` — `IID` carries the marker whatever it wraps, so an i.i.d. sample of a Cauchy distribution claims to be an exponential family and is not.
* `C144_exponential_violated` — Fails for the exponential distribution: for every rate and every sample of `n` nonnegative observations the joint exponential-family value is within rounding of the joint log-density less `2 n` times the logarithm of the rate.
* `C144_geometric_violated` — Fails for the geometric distribution: for every probability below one and every sample of `n` positive counts the joint exponential-family value is within rounding of the joint log-mass plus `n` times the logarithm of the failure probability.
* `C144_negative_binomial_violated` — Fails for the negative binomial distribution: for every probability from `2^-60` to one half and every sample of counts the joint exponential-family value is within rounding of the joint log-mass plus, for each count `k`, `(k - s) ln p + (s - 2 k) ln (1 - p)`.
* `C145_inner_space_violated` — Fails inside a text: one more space between a binary operator and its first operand, and the text is refused although it is the same expression.
* `C150_violated` — Fails for exponential, geometric and negative binomial distributions, whose two paths compute different numbers (C24, C144): for the exponential distribution with rate two the two computed values differ by more than one at every observation up to `2^10`.
* `C17_geometric_one_violated` — At `p = 1`: the constructor accepts it, but the log-density at `k = 1`, whose probability is 1, is NaN.
* `C20_binomial_violated` — The reported root measure of a binomial is the counting measure, but for `n = 2`, `p = 1/2` the density at `k = 1` is `1/4` instead of `1/2`; and at the accepted `p = 1` the log-density at `k = n` is NaN.
* `C21_negative_binomial_violated` — For every accepted `p` and every `r ≥ 2` the reported mass function sums to `p^(r-1) < 1`, and the exponential-family evaluation disagrees with the log-density already at `r = 1`, `p = 1/4`, `k = 0`.
* `C22_nan_accepted_violated` — A NaN location parameter is accepted by `Normal::new` and `Cauchy::new`, after which the log-density is NaN everywhere; and `Gamma::from_shape_scale` accepts scale 0.
* `C24_violated` — For every accepted rate the two evaluations of Exponential differ by `2 ln rate`; for every accepted `p < 1` those of Geometric differ by `ln(1-p)`; those of Binomial by the coefficient; those of NegativeBinomial even for `r = 1`; and Bernoulli with the accepted `p = 0` gives NaN instead of `0` at the certain outcome.
* `C25_violated` — Binomial and NegativeBinomial panic on every natural parameter; ChiSquared ignores its second natural parameter, so a value other than `-1/2` is lost; the standard normal ignores its parameter altogether; the accepted Bernoulli `p = 1` does not survive the round trip.
* `C26_violated` — For every accepted rate the Exponential integral is `e^{-A}` instead of `e^A`; for every accepted `p < 1` the Geometric sum over its support is `(1-p) e^A`; and for the accepted NegativeBinomial `r = 1`, `p = 1/4` the sum is `3/2` while `e^A = 4/3`.
* `C27_violated` — For every accepted `p` the NegativeBinomial with `r = 1`, whose log-density is normalised, has mean `(1-p)/p`, while `mean()` returns `p/(1-p)`; they differ unless `p = 1/2`.
* `C28_boundary_violated` — At the boundary: the accepted `Bernoulli(0)` gives the joint log-density `-∞` on `[0, 1]`, while the single-sample formula gives NaN for the first draw, so the sum is NaN.
* `C31_violated` — Exponential: for every accepted rate the closure is off by `2 ln rate`. IID wrapper: on every sample the closure uses the log-partition of a single draw, so for `n` draws it is off by `(n-1)` log-partitions (here Exponential, for every rate and any number of draws). Categorical: outside the support the direct evaluation is `-∞`, the closure's value is finite.
* `C33_off_image_violated` — Off the image: for every accepted Normal, every `y ≤ 0` is reported to be in the support of its exponential, but the log-density there is NaN rather than `-∞`.
* `C34_negative_weight_violated` — For negative weights: the constructor accepts weights `-1, 2`, and at every point where both components have a positive density the mixture's log-density is NaN.
* `C37_violated` — Doubling (the `1 × 1` matrix `2`) reports log-Jacobian `0` instead of `ln 2`; and a componentwise transform reports `0` whatever the function, here doubling on three coordinates, whose derivative matrix has determinant `8`.
* `C43_zero_factor_violated` — With a literal zero factor the two evaluators disagree: `0 * ln(x)` at `x = 0` is an error for one and `0` for the other; `0 * x` at `x = +∞` is NaN for one and `0` for the other.
* `C44_infinite_argument_violated` — At an infinite argument linear evaluation is wrong: the constant `1` becomes NaN.
* `C46_violated` — Hence the two disagree when a second variable occurs: `x + y` over `[3]` gives `[3]` instead of an undefined-variable error.
* `C47_ln_square_violated` — `ln(x²)` is `0` at `x = −1`, but simplifies to `2·ln(x)`, which is an error there.
* `C47_power_power_violated` — `(x²)^0.5` is `1` at `x = −1`, but simplifies to `x^1`, which is `−1`.
* `C47_sqrt_square_violated` — `sqrt(x²)` is `1` at `x = −1`, but simplifies to `x`, which is `−1`.
* `C49_idempotent_violated` — Simplification is not idempotent: `0 − (−y)` becomes `−(−y)` and only then `y`.
* `C50_inf_violated` — The cache confuses a variable called `inf` with the literal infinity: after `simplify_cached(∞)`, `simplify_cached` of the variable `inf` returns the literal.
* `C51_collision_violated` — The evaluation cache makes the same confusions: after `evaluate_cached(∞)`, the variable `inf`, although it has no value, evaluates to infinity; and after evaluating a variable whose name reads `(a + b)`, the sum of the undefined variables `a` and `b` has a value.
* `C53_zero_parameter_violated` — A parameter equal to zero hides errors after substitution: `a·ln(x)` with `a = 0` at `x = −1` is an error before substitution and `0` after it.
* `C54_inf_violated` — The names `inf` and `NaN` must be excluded: a variable called `inf` prints like the literal infinity.
* `C54_latex_violated` — The LaTeX text does not even determine the value: it prints no brackets around sums, so `(x + y)·z` and `x + y·z` have the same text.
* `C56_reuse_violated` — The optimizer keeps what it was given: after `0 / 0`, for which the rules give both `0` and `1`, every faithful engine makes `optimize(x + 1)` return an expression that is wrong for some `x`; a new optimizer returns a right one.
* `C56_rules_violated` — `(x^a)^b → x^(a·b)` turns `((-1)^2)^(1/2) = 1` into `(-1)^1 = -1`, and `ln(x^n) → n·ln x` turns `ln((-1)^2) = 0` into an undefined expression.
* `C56_sqrt_square_violated` — Every faithful engine turns `sqrt (x^2)` into `x`, which has the opposite sign when `x` is negative.
* `C57_constant_violated` — Every faithful engine replaces a literal by its rounding: `optimize` of the constant `0.25` returns `0.2` or `0.3`, and of `0.01` returns `0`.
* `C57_sqrt_violated` — The parser does not know square roots: no expression with a square root in it survives, whatever its names (without quotation marks, backslashes, parentheses) and literals.
* `C58_panics_violated` — Every faithful engine makes the optimizer panic on a power whose base is a variable named `) x`: the parser, which counts parentheses inside names, cuts out `(Var ")` and slices it at `6..5`.
* `C60_out_of_range_violated` — Outside that range the exponent wraps around into the sign: results are negative, where the true values are close to 0 or overflow.
* `C60_traps_violated` — NaN, infinities and numbers whose exponent does not fit in 32 bits stop the process.
* `C61_domain_violated` — The result is a number between -710 and 711 for every argument whatsoever: zero, negative numbers, infinities and NaN are not reported.
* `C61_negative_violated` — At a negative normal double the result is the logarithm of the absolute value.
* `C63_call_batch_violated` — `call_batch` never returns a number: it passes two pointers and two lengths to a machine function that takes floats, or panics.
* `C64_violated` — With a parameter whose name sorts before the data variable, the parameter is taken as the input and the data variable is unknown: the documented use (expression in `x` with a table of parameters) fails to compile.
* `C65_trait_var_violated` — A program that makes its variable with the trait's own `var` instead of taking it as an argument is the identity function for the JIT interpreter and the constant zero for direct evaluation.
* `C66_mismatch_violated` — A length mismatch between samples is not always reported: the second row's extra statistic disappears.
* `C67_beta_pattern_violated` — Is wrong for instance for `Beta(2, 2)` at every point of the support.
* `C67_exponential_pattern_violated` — A positive, growing number off it, where the density is zero.
* `C67_gamma_eval_violated` — Above shape 12 it uses Stirling's formula without the correction term: on the support its value is too large, by more than 0 and at most `1/(12·shape)`, for every shape, rate and point.
* `C67_gamma_patterns_violated` — With the only implementation of `gamma_function` in the library, the gamma, beta and Student-t patterns panic for every interpreter and every argument.
* `C67_poisson_pattern_violated` — Is the Poisson mass only at `k = 1` and `k = 2` …
* `C67_poisson_pattern_zero_violated` — At `k = 0` its value is `+∞`.
* `C74_never_returns_violated` — No evaluation method ever returns a number, whatever was compiled: they all go through `call_batch`.
* `C75_auto_always_fails_violated` — `auto_jit` and `auto_symbolic` fail for every value of every type: they always use a new optimiser, whose registry is empty.
* `C76_double_rounding_violated` — Converting an integer to single precision goes through double precision and can miss the nearest single: `2^60 + 2^36 + 1` becomes `2^60`, although `2^60 + 2^37` is nearer.
* `C76_int_identity_violated` — Beyond `2^53` a representable value is not preserved: converting `i64` to itself loses the low bit of `2^53 + 1` and turns `i64::MAX` into the fallback.
* `C78_infinity_violated` — The literal infinity is printed `inf`, which Python reads as a name.
* `C78_negated_base_violated` — The text of `(-x)^2` is `(-(x) ** 2)`, which Python reads as `-(x^2)`: at `3` the expression is `9` and the text `-9`.
* `C78_negative_literal_violated` — The same happens to a negative literal: `(-3)^2` is printed `(-3 ** 2)`, which Python reads as `-(3^2)`.
* `C78_reserved_word_violated` — An expression with a variable whose name is a reserved word, such as `lambda`, has no reading at all.
* `C81_auto_order_violated` — Two runs that see the variables in different orders build functions whose arguments are swapped.
* `C81_auto_unusable_violated` — With no variable, or two or more, no call method ever returns a number.
* `C83_all_panic_violated` — As shipped, none of these functions returns: each of them panics on every interpreter and every argument, and so does the Fisher information.
* `C84_gradient_violated` — The second component is not the derivative: for the standard normal at 0 the derivative of the log-density is 0 — and the forward-mode result carries it — but `value_and_grad` returns `−½ ln 2π`.
* `C85_reentrant_violated` — A wrapped density that calls back into its own cached density — memoised recursion — always panics there, even if the point it asks for is already in the table; the call does not recurse, the table is unchanged and the object stays usable.
* `C86_compile_jit_violated` — `compile_jit` never gives a compiled function, for any distribution and parameters: it returns the error "unsupported expression" with a text that names the distribution.
* `C87_order_violated` — `evaluation_order`, documented as the topological order of the constants, stays empty whatever is added.
* `C88_overflow_violated` — Cannot be strengthened to finite results: with mean `-2^1023` and standard deviation `2^1023` the log-density at `2^1023`, two standard deviations away, is `-∞` although the true value is above `-1000`: the difference overflows before it is divided.
* `C89_cauchy_violated` — The standard Cauchy log-density at `2^600` is `-∞`, a point of density zero, although the density is positive there and its logarithm is above `-1000`: the score is squared before the logarithm is taken.
* `C90_cancellation_violated` — Fails without overflow, too: at the mean `2^27` of a Normal with standard deviation one the exponential-family path returns exactly `0`, density one, while the true density is below `exp (-13/20)`.
* `C90_nan_violated` — Fails for large means: at the mean `2^600` of a Normal with standard deviation one the exponential-family path returns NaN, while the direct path is accurate there by C88.
* `C92_mixture_violated` — In single precision `mixture` panics on the weights 0.1 and 0.2.
* `C92_overflow_violated` — In double precision `mixture` panics on two equal weights of `2^1023`.
* `C92_uniform_violated` — In single precision `uniform` panics on every list of ten components.
* `C94_simplify_violated` — Simplification changes results in floating point: `ln(exp(x))` at `x = 1000` evaluates to `+∞`, and to `1000` after `simplify`.
* `C94_smart_overflow_violated` — Cannot be strengthened to say that `evaluate_smart` and `evaluate` agree: for the expression `2^1023·x + 2^1023·x` at `x = 0`, which is zero and which `evaluate` computes exactly, `evaluate_smart` returns NaN, because the combined coefficient of its linear shortcut overflows.
* `C95_log_sum_exp_violated` — Fails for the `log_sum_exp` pattern: for two values `1000` it is `+∞` in doubles although the value is `1000 + ln 2`; the log-density of a mixture (`C93_logSumExp`) does not have this defect.
* `C95_softplus_relative_violated` — Softplus has no relative accuracy for negative arguments: at `-50` it is exactly zero in doubles although the value is positive.
* `C95_softplus_violated` — Fails for the softplus of large numbers: at `1000` it is `+∞` in doubles although the value is about `1000`.
* `C96_exp_traps_violated` — NaN and the infinities stop the process.
* `C96_exp_wrap_violated` — At every double from 712 to 2000, and from -2000 to -712, the result is a negative number.
* `C96_ln_domain_violated` — The result is a number between -710 and 711 for every argument whatsoever: zero, negative numbers, infinities and NaN are not reported, and the logarithm of subnormal numbers is wrong.
* `C97_default_base_violated` — Without the condition on addresses: in a legal layout that gives the zero-sized root the address of the measure, `Normal(0,1).log_density().at(0)` is not the log-density at 0.
* `C99_counts_violated` — For `exp(x)` six instructions are reported where more than forty are generated; for `2x` no embedded constant is reported where one is; for `x` as many constants are reported as were passed, used or not; a custom log-density always reports 64 bytes and 8 instructions.
* `C99_elementary_violated` — For every elementary function: `ln(x)`, `exp(x)`, `sin(x)` and `cos(x)` report six instructions, of which three are for the function, where 55, 53, 9 and 9 are generated.
* `C99_recorded_violated` — For recorded computations: `ln(x)` reports four instructions where 55 are generated.
