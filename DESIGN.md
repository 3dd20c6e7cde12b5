# Formal model of corywalker/expreduce in Lean 4

## 1. Layout

* `lean/Verif/Model/*.lean` – model of the Go code, function by function; every definition cites file and lines in `/repo` and names its simplifications.
* `lean/Verif/Spec/*.lean` – small specifications, written without the helpers of the model (they use the expression type and, where the English property speaks about it, the
  primitive comparison of the language).
* `lean/Verif/Proofs/*.lean` – lemmas.
* `lean/Verif/Props/*.lean` – the property theorems (`Cnn_name`), each with an `example` (or a refutation theorem) beside it showing a concrete non-trivial case that meets the hypotheses.
* `seeded/LOG.jsonl` – wrong programs (edits of the model) and the theorems that fail on them.

A theorem whose property is **false of the code** is answered by a theorem that exhibits the disagreement (counterexample, crash or divergence, for all inputs of a class where
possible) and by a positive theorem for the part that holds; such properties have status `partial` in `MANIFEST.json` and the note says what is false.

## 2. Trusted base

1. **Lean's kernel** (4.33.0) and the Mathlib release installed with it, as compiled; no compiled-code tactic is used.
2. **Axioms**: at most `propext`, `Classical.choice`, `Quot.sound`. No axiom is declared here. Section 6 lists the axioms per theorem.
3. **The model**: that the definitions in `lean/Verif/Model` say what the Go text says. The Go code was read, never run. Everything in section 3 that is called a simplification is part of this.
4. **Contracts of libraries** that are not in `/repo`, used as stated in their documentation:
   * `sort.Sort`, `sort.Strings`: result is a permutation; sorted if the comparison is a strict weak order; not stable. No theorem assumes more (`SortResult`).
   * `math/big`: `Int` exact, `Div`/`Mod` Euclidean, `Quo`/`Rem` truncated, `Int64` keeps the low 64 bits (`wrap64`); `Rat` exact and reduced; `Float` of precision 53 rounds once to nearest even.
     Infinities, `-0`, accuracy flags and exponent overflow are left out.
   * `hash/fnv` (64 bit): a function of the bytes written. Nothing is assumed about collisions; theorems that need none say so in a hypothesis.
   * `GobEncode` of numbers: bytes as documented in `math/big` (`C09`).
   * `concurrent-map`: single operations are atomic.
   * `prime.Primes(n)`: the primes up to and including `n`.
   * `fmt` `%.6g`/`%.14g`: a parameter (`fl`) in printing.
   * `modernc.org/wl`: the grammar is not modelled; parse trees (`PT`) are the input of the parser model, and precedences are a parameter of the printer.
   * `io.Writer`: appends everything it is given.
5. **Go semantics** used: slices and maps as values unless the section on aliasing says otherwise; map iteration in arbitrary order (a permutation); a nil dereference, a failed type assertion, an
   index out of range and `log.Fatal` end the program (`none`, `Res.panic`): there is no `recover` in the repository.

## 3. What is modelled, what is not

| Part of `/repo` | Model | Simplifications and omissions |
|---|---|---|
| `pkg/expreduceapi/cas.go`, `atoms/ex_*.go` (data) | `Ex.lean` | expressions are values (no pointers, no cached hashes); reals are finite rationals; `expr []` exists as in Go |
| `atoms/order.go` | `Order.lean` | none beyond reals |
| `atoms/sameq.go`, `Hash` methods | `SameQ.lean` | fingerprint = fnv of an explicit byte list |
| `builtin_sort.go`, `Orderless` step | `Sort.lean` | library contract |
| `atoms/calculator.go`, `eval.go` (rationals, complex), `builtin_arithmetic.go`, `builtin_power.go` | `Arith.lean`, `Round.lean`, `NumTheory.lean` | trigonometric and real powers of non-integers omitted; in-place normalisation of rationals is a new value |
| `builtin_comparison.go`, `builtin_boolean.go` | `Compare.lean`, `Inequality.lean` | operand/operator pairs instead of indices; `es.Eval` inside `Inequality` is a parameter |
| `matcher/allocations.go` | `Alloc.lean` | explicit stacks as lists, fuel for loops |
| `matcher/{matchq,parse_form,blank,pdmanager,pdreplace}.go` | `Match.lean` | iterators as lists of all results (eager); `es.Eval` as an oracle `isTrue`; copies of bindings between sibling matches; `BlankSequence` counts unbounded |
| `replace.go`, `builtin_replacement.go` | `Replace.lean` | `DeepCopy` is the identity; `ReplaceList`, `ReplacePart` with aliasing see section 4 |
| `evalstate.go` (definitions), `definition_map.go` | `Defs.lean`, `Concurrent.lean` | rule lists are values; one map operation is one atomic step; printed length is a parameter `strLen` |
| `eval.go` | `Eval.lean`, `EvalObj.lean` | `Eval.lean`: values, skip marks are an arbitrary predicate, no tracing or profiling; `EvalObj.lean`: objects with marks, on a fragment |
| `builtin_system.go`, `builtin_flowcontrol.go` (parts) | `Eval.lean`, `Unique.lean`, `Streams.lean` | see the files; `Timing`, `Print` formatting, time and random functions omitted |
| `eval.go`, `builtin_system.go` (`Trace`) | `Trace.lean` | the evaluator with the trace field; builtin functions are programs that only call the evaluator |
| `evalstate.go` (`ProcessTopLevelResult`), `expreduce.go` (the loop) | `Session.lean` | inputs and results; reading, printing and formatting left out |
| `builtin_system.go` (`Save`, `Get`, `tryReadFile`) | `Save.lean` | gob, zlib and the file system are parameters; the remembered evaluation flag (`EvaledHash`), which is saved too, omitted |
| `iterspec/iterspec.go`, `Table`, `Do`, `Sum`, `Product`, `Range` | `Iter.lean` | `ParallelTable` only in `Concurrent.lean` as threads |
| `builtin_list.go` | `Lists.lean` | sharing of parts between argument and result not modelled |
| `builtin_functional.go`, `builtin_expression.go` | `Functional.lean` | `Apply`'s inner evaluation is a parameter |
| `builtin_matrix.go`, `qfunctions.go`, `builtin_manip.go` (`Distribute`) | `Matrix.lean` | lengths as naturals |
| `MatchQ`, `ReplaceList`, `DownValues`, `Prime`, `builtin_random.go`, `Pause` | `Rest.lean` | prime sieve, random generator and clock are parameters |
| `builtin_numbertheory.go`, `builtin_combinatorics.go` | `NumTheory.lean` | fuel for loops |
| `resources/solve.m:174-187, 317-318`, `equationdata.m`, `matrix.m:2-4` | `SolveRules.lean` | patterns and right sides of the rules; `Solve` itself (isolation, `Expand`, `Simplify`) is not modelled |
| `resources/rubi/1.1.1 Linear binomial products.m`, `9.1 Integrand simplification rules.m` (28 rules), `calculus.m:78-79` | `IntRules.lean`, `Definite.lean` | patterns, tests and right sides of the rules; the utility functions and the order of the rules are not modelled |
| `builtin_flowcontrol.go:10-50,153-179` (`With`, `Switch`) | `With.lean` | complete |
| `resources/simplify.m:2-37` (`booleanSimplify`) | `BoolRules.lean` | the rules and the rounds; the evaluation after a round is a parameter |
| `builtin_replacement.go:69-105,238-266` (`ReplacePart`) | `ReplacePart.lean` | the reused list object; conditions inside `With` and `Module` left out |
| `resources/list.m:232-234,337,351,365,428,442`, `functional.m:155,156,179` (`Take`, `Last`, `First`, `Rest`, `Count`, `Tally`, `Fold`, `Nest`) | `ListProg.lean` | right-hand sides as compositions of the modelled functions; the choice of the rule is not modelled |
| `resources/arithmetic.m:281-344`, `list.m:299-325`, `flowcontrol.m:109-111` (`Increment`, ..., `AddTo`, `AppendTo`, `For`) | `AssignProg.lean` | stored as rules, found by the matcher, run by the evaluator; rules of `Plus` and `Times` left out; sameness of expressions is equality |
| `evalstate.go:328-358, 431-599`, `eval.go:48-276` on functions of the user | `Defs.lean`, `Eval.lean`, `AssignProg.lean` | definitions with parameters `x_` and integers; the printed length of a left side is a parameter |
| `resources/numbertheory.m:258-261` (`Fibonacci`) | `FibProg.lean` | rules, attributes and the definitions made by a call; run in the evaluator |
| `builtin_flowcontrol.go:57-130`, `resources/flowcontrol.m:2` (`If`, `While` in programs) | `Eval.lean`, `Spec/ImpProg.lean` | language of integer programs with a big-step semantics, run in the evaluator |
| `eval.go:48-345`, `replace.go` (recursive functions of the user) | `Eval.lean`, `Spec/FunProg.lean` | functional language of integers with a definitional interpreter, run in the evaluator |
| `atoms/ex_expression.go:169-246,304-311` (stored fingerprints), `builtin_comparison.go:18-68` (`Min` on objects) | `HashCache.lean` | objects and pointers; the caches of atoms are not modelled |
| `resources/list.m:10,22,396` (`Total`, `Mean`, `ListQ`), `resources/boolean.m:75,85-86` (`AllTrue`, `Boole`) | `Summary.lean` | one evaluation pass over results |
| `resources/solve.m:3-44,110-134` (`countVar`, `applyInverse` for sums, products and powers, `isolate`) | `Isolate.lean` | right sides not evaluated; other inverse functions and the check of results not modelled |
| `resources/stats.m:18-19` (`PDF`) | `Density.lean` | right sides not evaluated |
| `resources/power.m:286-300` (`Expand`) | `Expand.lean` | the rules and programs; evaluation between the rounds is a parameter |
| `resources/numbertheory.m`, `combinatorics.m` (programs) | `NumRules.lean`, `NumTheory.lean` | read as programs on numbers, not evaluated by the modelled interpreter |
| `resources/pattern.m` (`FreeQ`) | `FreeQ.lean` | evaluation of the result is a parameter |
| `parser/interp.go` | `Parser.lean` | grammar not modelled |
| `graphics/graphics.go`, `ExportString` | `Graphics.lean` | drawing library, conversion of reals to 8 bit and to doubles are parameters; messages dropped |
| `atoms/*.go` `StringForm`, `string.go`, `parser/parens` | `Print.lean` | `TeXForm`, `TraditionalForm`, `StandardForm`, `Definition` omitted |
| `streammanager`, `timecounter` | `Streams.lean` | time values in a type with exact addition |

Not modelled at all: `resources/*.m` except the functions named in the model files, `builtin_{trig,plot,specialsyms}.go`, the REPL (`main.go`), the other Rubi integration rules, logging, profiling.

## 4. Conventions

* **Fuel**: a function whose Go counterpart has a loop or recursion without an evident bound takes a number; a result of "out of fuel" for every number means that the Go code does not return.
  Theorems quantify over all fuels or say "there is a fuel from which on the result is …".
* **Crash**: `none` in the list functions, `Res.panic` elsewhere.
* **Aliasing**: where a property depends on objects being shared (`C42`, `C52`, `C30`) the model has explicit objects or cells.
* **Machine integers**: `wrap64` wherever an `int64` comes from a `big.Int`; loop counters are unbounded.
* **Hash equality**: in the code `IsSameQ` on compound expressions compares fingerprints; theorems either work with fingerprints and state the hypothesis "different expressions of this set have
  different fingerprints", or with the exact structural comparison when the code uses that.


## 5. Plan and result for each property

For each property: what is modelled, how it is proved, the theorems (with their file under `lean/Verif/Props/`), and what is missing or false. A line starting with *(refutation)* belongs to a theorem showing that the code disagrees with the property.

### C01 Canonical comparison is antisymmetric  — proved
`ExOrder` (Model/Order) as a function on expression trees with a refusal value where the code gives none; induction on the total size of the two operands.
* `C01_order_antisymmetric` (Order.lean): swapping the operands negates the answer; refusals are mutual. For all expressions.
* `C01_order_antisymmetric_good` (Order.lean): no refusal happens when all complex numbers have a real number as real part, so `Order[b,a] == -Order[a,b]` and `Order[a,a] == 0`.
* `C01_refusal` (Order.lean): The refusal exists: a complex number whose real part is a symbol.

### C02 Canonical comparison always terminates  — proved
The recursion of `ExOrder` with an explicit depth bound; well-founded induction on the number of nodes shows that a bound depending on the operands suffices and that the unbounded function satisfies the code's equations.
* `C02_exOrder_terminates` (Order.lean): the recursion of `ExOrder` returns, with a nesting depth of at most twice the total number of nodes.
* `C02_exOrder_unfolds` (Order.lean): the value returned satisfies the code's own recursion equation (the model function is the code's function).

### C03 Canonical comparison of numbers is a total preorder consistent with value  — proved
The numeric branch of the order (with 53-bit rounding) is shown equal to comparing a key (rounded value, kind, exact value); keys are linearly ordered.
* `C03_number_order` (Order.lean): numbers are compared by value rounded to 53 bits, integers before other numbers on ties, two integers exactly.
* `C03_numbers_total_preorder` (Order.lean): on integers, rationals and reals the comparison is a total preorder: total and transitive, and it respects value up to rounding.

### C04 Sorting returns an ordered permutation  — proved
The library sort enters through its contract (permutation, sorted for strict weak orders); the insertion sort used on short inputs is modelled and proved to meet the contract.
* `C04_sort_ordered_permutation` (Order.lean): whatever the (unstable) library sort does within its contract, the head stays, the arguments are permuted, and no argument is canonically before an earlier one.
* `C04_insertionSort` (Order.lean): every expression has a sorted form within the contract: the insertion sort the library uses on up to 12 elements is one.
* `C04_insertionSort_sorted` (Order.lean): sorting an already sorted argument list of at most 12 elements leaves it alone (Sort is idempotent there).

### C05 Orderless canonical form is unique  — partial
Two sorted permutations of one list agree position by position up to ties (induction); counterexamples by evaluation of the model.
*Result:* Uniqueness of the sorted form is false (C05_not_unique: ties between different complex numbers); proved: unique up to canonical ties.
* `C05_canonical_form_partial` (Order.lean): (partial: uniqueness only up to ties): sorting two rearrangements of the same arguments gives lists that agree position by position up to canonical ties.
* `C05_not_unique` (Order.lean): the canonical form is not unique: two orders of the same two complex numbers are both left as they are by the library sort (ties: complex numbers are compared by real part only).
* `C05_other_ties` (Order.lean): further ties of different expressions: `1/2` and `0.5`, and `x` and `Times[1, x]`.

### C06 String comparison is bytewise lexicographic  — proved
`strings.Compare` as a byte loop against lexicographic order on byte lists; induction.
* `C06_names_lexicographic` (Order.lean): symbols are ordered by the bytewise lexicographic order of their names, and so are strings; a tie means the names are equal.
* `C06_type_order` (Order.lean): numbers come first, then strings, then symbols and expressions.

### C07 SameQ is an equivalence relation  — partial
The type case table of `IsSameQ` with the `ulp` comparison of reals as a computation on rationals; equivalence on the exact part by cases; reals by arithmetic.
*Result:* Reflexive and symmetric everywhere; transitivity proved for expressions that are not reals; C07_not_transitive refutes it for reals.
* `C07_refl_symm` (Compare.lean): `a === a` and symmetry, for all expressions.
* `C07_trans_partial` (Compare.lean): (part). `===` is transitive on expressions that are not themselves machine reals.
* `C07_reals` (Compare.lean): Two nonnegative machine reals of double range are `===` exactly if no double lies strictly between them; the same for their negatives; reals of different sign are never `===`.
* `C07_not_transitive` (Compare.lean): is false for machine reals: `1 === 1+ulp`, `1+ulp === 1+2ulp`, but not `1 === 1+2ulp`.

### C08 SameQ is substitutive  — partial
Fingerprints of compound expressions as functions of the fingerprints of the parts; substitution by congruence; witnesses for reals.
*Result:* Proved for non-real operands; C08_not_substitutive refutes it for reals one ulp apart.
* `C08_substitutive_partial` (Compare.lean): (part). If `a === b` and neither is a machine real, they can be exchanged in any argument position.
* `C08_not_substitutive` (Compare.lean): is false for machine reals: `1. === 1.+ulp`, but `{1.} === {1.+ulp}` is false.
* `C08_accuracy_in_fingerprint` (Compare.lean): even two reals of the same value and precision can differ inside an expression: the encoding contains the rounding direction of the operation that produced them (`0.1*10.` against `1.`).

### C09 Structural hashing distinguishes different expressions  — partial
Explicit byte encodings and FNV-1a; injectivity of the encoding up to collisions by induction; the collision family for rationals is a theorem for all members.
*Result:* Fingerprint equality reduces to equality of the encodings up to a 64-bit hash; C09_rationals_collide refutes injectivity (numerator and denominator bytes are concatenated without separator).
* `C09_reduction_partial` (Compare.lean): (part). If two expressions without rational and real numbers have the same fingerprint, then they are equal, or two of their subexpressions with different encodings collide under FNV-1a.
* `C09_rationals_collide` (Compare.lean): is false for rational numbers, whatever the hash function: numerator and denominator are written without separator. All the pairs `a/(65536 b + 512 + c)` and `(65536 a + 512 + b)/c` have the same encoding, so `SameQ` cannot tell them apart, not even inside …

### C10 Equal is symmetric and respects numeric value  — partial
`IsEqual` of every atom type as a table; case analysis; witnesses.
*Result:* C10_not_symmetric refutes equal verdicts in both directions; proved: no contradiction and symmetry of True.
* `C10_true_symmetric_partial` (Compare.lean): (part). `a == b` is `True` exactly if `b == a` is.
* `C10_not_symmetric` (Compare.lean): is false: `1/2 == 1` is `False` but `1 == 1/2` stays unevaluated; `"a" == x` is `False` but `x == "a"` stays unevaluated; `1/2 == 0.5` is `False` although the values are equal.
* `C10_no_contradiction` (Compare.lean): The direction of a verdict matters in no other way: `a == b` never says `True` when `b == a` says `False`.
* `C10_verdict_symmetric_partial` (Compare.lean): The verdict of `a == b` depends on the direction only if exactly one side is a string, rational or complex number; an unknown or `False` verdict on any other pair is the same in both directions.

### C11 Equal verdicts are sound  — proved
Same table; `True` is compared with structural equality by induction, verdicts on numbers with their values in ℚ.
* `C11_true_iff` (Compare.lean): On expressions without reals, `a == b` is `True` exactly if `a` and `b` are the same expression.
* `C11_exact_numbers` (Compare.lean): A verdict `False` between two normalised exact numbers is right: their values differ; and `True` means equal values.

### C12 Less/Greater agree with numeric order on exactly representable integers, and only there  — proved
53-bit rounding function on rationals (Model/Round), monotone and exact up to 2^53; the chained comparison loops by induction on the arguments.
* `C12_reals` (Compare.lean): On real numbers (integers, rationals, machine reals), `Less`, `LessEqual`, `Greater`, `GreaterEqual` with any number of arguments answer `True` exactly if the 53-bit roundings are strictly increasing, non-decreasing, strictly decreasing, non-increasing, …
* `C12_small_integers` (Compare.lean): For integers of magnitude at most `2^53` the verdict is the exact one.
* `C12_less_true_sound` (Compare.lean): A verdict `True` of `Less` between exact numbers is right at any magnitude (rounding is monotone).
* `C12_no_trichotomy` (Compare.lean): Above `2^53` trichotomy fails: for `a = 2^53`, `b = 2^53 + 1` none of `a < b`, `a > b`, `a == b` is `True` (although `a <= b` and `a >= b` both are).
* `C12_complex_by_real_part` (Compare.lean): Complex numbers are compared by their real parts: `5 I < 1` is `True`, and `I <= 2 I` and `2 I <= I` are both `True`.

### C13 Rational normalisation  — proved
`Rational` normalisation with `Int.gcd`; values in ℚ.
* `C13_normal_form` (Arith.lean): `Rational[n, d]` with `d ≠ 0` evaluates to a number in normal form (an integer, or lowest terms with denominator `> 1`) with value exactly `n / d`.
* `C13_integer_iff` (Arith.lean): The normal form is an integer exactly if the denominator divides the numerator.
* `C13_unique` (Arith.lean): Normal forms are unique: equal fractions evaluate to the same expression.
* `C13_zero_denominator` (Arith.lean): Zero denominators: `Rational[0,0]` is `Indeterminate`, `Rational[n,0]` is `ComplexInfinity`.
* `C13_idempotent` (Arith.lean): Evaluating a number again changes nothing; complex numbers with exact zero imaginary part become real.
* `C13_same_value_iff` (Arith.lean): Two exact numbers (integer, rational or complex) have the same evaluated form if and only if they are mathematically equal.

### C14 Exact arithmetic of numeric arguments  — proved
Folding loops of `Plus` and `Times` over exact numbers (integers, rationals, complex) as list recursions; value in ℚ[i] by induction.
* `C14_plus_exact` (Arith.lean): Evaluating `Plus` on any nonempty list of exact numbers gives an exact number whose value is the sum.
* `C14_times_exact` (Arith.lean): Evaluating `Times` on any nonempty list of exact numbers gives an exact number whose value is the product.
* `C14_plus_order_independent` (Arith.lean): The normalised sum does not depend on the order of the addends, nor on anything but its value.
* `C14_times_order_independent` (Arith.lean): The normalised product does not depend on the order of the factors.
* `C14_times_keeps_rest` (Arith.lean): With non-numeric factors the numbers in front are multiplied exactly and everything from the first non-numeric factor on is kept unchanged and in order (unless the numeric factor is 0 or 1, or `-1` meets a single `Plus`).

### C15 Collecting like terms preserves value  — partial
Collection of like terms as a list recursion over coefficient/term pairs; valuation of expressions into an arbitrary field of characteristic 0 (Spec/Arith `value`), invariance by induction.
*Result:* Plus: proved when the fingerprints of different non-numeric parts differ; C15_wrong_on_collision refutes the unconditional claim. Times: proved.
* `C15_plus_value_partial` (Arith.lean): Evaluating `Plus` (including collection of like terms) on any arguments without machine reals yields an expression with the same value under every assignment of values to the non-numeric subexpressions, provided no two of the terms have different …
* `C15_times_value` (Arith.lean): Evaluating `Times` on arguments without machine reals preserves the value under every assignment, or answers `Indeterminate` because a numeric zero met `Infinity`, `ComplexInfinity` or `Indeterminate`.
* `C15_merges` (Arith.lean): Adjacent like terms really are merged: `c₁·x + c₂·x` with exact coefficients becomes one term whose coefficient is the sum.
* `C15_wrong_on_collision` (Arith.lean): the restriction is necessary: `x^(1/66051) + x^(66049/3)` is collected to `2 x^(1/66051)`, because the fingerprints of the two exponents coincide; the two sides have different values under some assignment.

### C16 Integer powers are exact  — proved
Square-and-multiply of `big.Int.Exp` by its contract; normalisation of the result.
* `C16_power_exact` (Arith.lean): Integer powers are exact: whenever `b ≠ 0` or `p > 0`, `b^p` evaluates to the normalised number with value `b^p`.
* `C16_zero_base` (Arith.lean): `0^0` is `Indeterminate`, and `0` to a negative power is `ComplexInfinity`.

### C17 Boolean connectives are sound three-valued logic  — proved
`And`, `Or`, `Not` with the evaluator as a parameter; three-valued reading under all assignments; short circuit by cases on the first decided argument.
* `C17_and_or_sound` (Compare.lean): If evaluation preserves truth values, the result of `And` (`Or`) has the truth value of the conjunction (disjunction) of the arguments under every assignment `ρ` that reads unevaluated `And[...]` (`Or[...]`) as conjunction (disjunction).
* `C17_short_circuit` (Compare.lean): `And` evaluates its arguments left to right up to and including the first one that evaluates to `False`, and nothing after it; if there is such an argument the answer is `False`. The same for `Or` with `True`.
* `C17_not` (Compare.lean): `Not` of one argument negates decided truth values and is otherwise left alone.

### C18 Pattern sequence allocation is complete and duplicate free  — proved
The stack machine of `allocations.go` run with fuel; invariant relating stack and set of allocations still to come; the shown list is compared with the specified set (sound, complete, `Nodup`, ordered).
*Result:* For nonempty pattern lists with nonnegative lower bounds; C18_no_forms and C18_negative_bound prove what happens in the two excluded cases.
* `C18_allocations` (Alloc.lean): For any nonempty list of forms with nonnegative lower bounds and any number `l` of arguments, calling the iterator until it stops ends, and the allocations shown are exactly those within the bounds that use up the `l` arguments, each once.
* `C18_order` (Alloc.lean): The allocations are shown in lexicographic order: shortest sequences first, optional elements filled eagerly.
* `C18_no_forms` (Alloc.lean): outside the hypothesis: a pattern without elements is proposed for every number of arguments, although nothing takes the `l` arguments. (Hence `MatchQ[f[a], f[]]`, see `C62`.)
* `C18_negative_bound` (Alloc.lean): outside the hypothesis: a negative repetition count, as in `Repeated[a, {-2}]`, makes the iterator propose a negative number of arguments (slicing with it panics in Go).

### C19 Orderless assignment enumeration is complete and duplicate free  — proved
The assignment iterator for Orderless heads: same technique on top of C18.
* `C19_orderless` (Alloc.lean): With an `Orderless` head: for any nonempty list of forms with nonnegative lower bounds, any compatibility table with one row per form, and any number of arguments, the iterator ends and shows exactly the assignments of all arguments to forms that respect …
* `C19_ordered` (Alloc.lean): Without `Orderless`, the iterator shows for each allocation the consecutive segments of `0..l-1`, and nothing else; compatibility is not consulted.

### C20 Pattern matching is sound  — partial
The matcher (Model/Match) as a fuelled function returning all results; a declarative relation `Inst` of instance (Spec/Match); soundness and completeness by induction on the pattern; termination by a size measure.
*Result:* Soundness, termination, completeness and reproduction proved for the covered pattern language (literals, blanks, names, compound patterns under any attributes, Repeated, Alternatives, PatternTest, HoldPattern, Optional with explicit or function default, including the omitted head as in x_. + y_; for soundness and termination also heads Verbatim[f]) on expressions without machine reals; C20_reals_drift refutes it for reals, C20_alternatives_incomplete shows why completeness needs its condition, C20_rational_opened shows why it excludes numbers under Optional. Condition inside patterns, Except and other uses of Verbatim are modelled but not covered by the theorems.
* `C20_pattern_free` (ListProg.lean): **C20, literals.** A pattern without anything special for the matcher (no reals, pattern heads, `Flat` or `Orderless` heads, empty calls) matches itself and nothing else, up to collisions of fingerprints.
* `C20_returns` (Match.lean): The matcher returns on every covered pattern and every expression whose nodes all have heads: it neither crashes nor runs forever (`n` bounds the recursion depth; any bound from `matchFuel a b` on gives a result).
* `C20_sound_partial` (Match.lean): Soundness: if `MatchQ` says yes, the expression is an instance of the pattern under the bindings returned. In particular a name has one value throughout. (Default values of functions must not contain machine reals: `env.Exact`.)
* `C20_sound_extends` (Match.lean): Soundness under given bindings: the bindings that were there are kept, up to sameness of their values.
* `C20_decides` (Match.lean): Completeness: `MatchQ` says yes exactly if there are bindings that make the expression an instance of the pattern. The conditions: alternatives and tested subpatterns bind no names inside, and the expression has no rational or complex numbers unless the …
* `C20_all_ways` (Match.lean): Every way of matching is found: for all bindings that make the expression an instance, some result of the iterator agrees with them.
* `C20_reproduces` (Match.lean): For patterns of literals, named blanks and ordinary functions: replacing the names in the pattern by the values returned reproduces the expression (up to sameness). The two side conditions exclude that the code confuses an atom with a compound pattern …
* `C20_reals_drift` (Match.lean): the restriction to expressions without machine reals is needed: `f[x_, x_, x_]` matches `f[1., 1.+ulp, 1.+2ulp]` although the bound value is not the same as the first argument (the binding moves along with each one-ulp step).
* `C20_alternatives_incomplete` (Match.lean): the restriction on alternatives is needed: `f[x_ | y_, x_]` matches `f[1, 2]` with `y -> 1, x -> 2`, but the code commits to the first alternative and says no.
* `C20_default` (Match.lean): An optional argument that is not there has the default value: against no arguments at all, the names of `f[x_:d]` and, for a function with a default value, of `f[x_.]` are bound to it.
* `C20_rational_opened` (Match.lean): a defect: matched against `x_. + y_`, the number 2/3 is taken apart first, so that `y` is bound to the unevaluated compound expression `Rational[2, 3]`, which is not the same as 2/3.
* `C20_verbatim` (Match.lean): Under a head `Verbatim[f]` the attributes of `f` do not count: in `Verbatim[f][x_, y___]` the name `x` stands for the first argument and `y` for the others in their order, even if `f` is `Orderless` or `Flat`.
* `C20_binds_only_names` (Replace.lean): A match binds only names that occur in the pattern.

### C21 A failed pattern alternative leaves no bindings  — partial
The bindings object is threaded through as in the code; counterexample and proof for the patterns that bind nothing.
*Result:* False in general (C21_pollution); proved for patterns without names and for compound patterns.
* `C21_no_names` (Match.lean): For patterns without names a match, failed or not, leaves the bindings as they were.
* `C21_compound_keeps_partial` (Match.lean): A failed match of `f[p1, ..., pk]`, named or not, leaves the bindings it was given as they were: names bound on the way are forgotten.
* `C21_pollution` (Match.lean): is false in general: in `(x_?OddQ | y_?EvenQ)` against 2 the first alternative fails its test, but `x -> 2` is left among the bindings of the answer.

### C22 Binding replacement is simultaneous substitution  — proved
`ReplacePD` as simultaneous substitution, compared with a substitution function on trees (Spec/Match).
* `C22_substitution` (Match.lean): Inserting bindings is simultaneous substitution: every bound symbol is replaced by its value, nothing else is changed, and the inserted values are not looked at again.
* `C22_untouched` (Match.lean): Expressions without bound names are returned as they are.

### C23 ReplaceAll with several rules is first-match, simultaneous  — partial
`ReplaceAll` and rule lists (Model/Replace) against a relational description of one outermost pass; induction on the expression.
*Result:* False as stated: C23_not_simultaneous (rules are applied one after the other) and C23_flat_inner_missed (arguments of a Flat function are not searched). Proved: one rule is one outermost-first pass (C23_one_rule_partial, non-Flat pattern heads, covered patterns), independent symbol rules act simultaneously (C23_symbols), and what happens at Flat heads (C23_flat).
* `C23_one_rule_partial` (Replace.lean): one rule. `e /. lhs -> rhs` returns, and the result is one outermost-first pass of the rule over `e`: matching subexpressions are replaced by the right side under the bindings of the match, inserted text is not looked at again. (Covered patterns; `e` …
* `C23_not_simultaneous` (Replace.lean): as stated is false: the rules are applied one after the other. `{x, y} /. {x -> y, y -> x}` gives `{x, x}`.
* `C23_flat_inner_missed` (Replace.lean): as stated is false for `Flat` heads: below a `Flat` function with the head of the pattern, occurrences inside the arguments are missed. `c + x*(a+b) /. a+b -> d` changes nothing although `a+b` occurs.
* `C23_flat` (Replace.lean): under a `Flat` head `h`: if `h[largs]` does not match `h[args]` as a whole, it is matched as `h[start___, largs, end___]` (without `start___` if `h` is `Orderless`), and the leftover arguments stay around the result. Otherwise nothing changes, not even …
* `C23_symbols` (Replace.lean): several rules. Rules for symbols whose values mention none of the replaced symbols do act simultaneously, the first rule for a symbol winning.

### C24 Sequence splicing is one-level flattening  — proved
The splicing step of the evaluator against one-level flattening of lists.
*Result:* Splicing is proved for all argument lists; the value of a call is proved for heads about which only attributes are known and arguments that are values (expressions are values, no aliasing).
* `C24_splice` (Eval.lean): Splicing is one-level flattening, for every head and every list of parts.
* `C24_call` (Eval.lean): The value of `f[args]`, where nothing but the attributes of `f` is known and the arguments and the elements of the sequences among them are values: the sequences are spliced in place, the rest is kept in order.
* `C24_sequence_hold` (Eval.lean): A head with the attribute `SequenceHold` keeps its sequences.

### C25 Listable threading has the right shape and is elementwise  — proved
The Listable step against elementwise threading; induction on the arguments.
*Result:* The shape is proved for all arguments; the value for heads that are only Listable.
* `C25_thread` (Eval.lean): Threading: it happens exactly if some argument is a list and all lists among the arguments have the same length; then the result is a list of that length, whose entry `i` applies the same head to the `i`-th elements of the lists and to the other arguments …
* `C25_call` (Eval.lean): The value of `f[args]` for a Listable `f` about which nothing else is known and arguments that are values: if threading applies, it is the list of the values of the entries.
* `C25_Thread` (Matrix.lean): `Thread[h[args]]` is a list of calls of `h` if `args` contains lists and all of them have the same length; otherwise it is `h[args]`.

### C26 Hold attributes control exactly which arguments are evaluated  — proved
The argument loop of the evaluator with attributes; relation of evaluated positions.
*Result:* For heads about which only attributes are known; Evaluate overrides the hold attributes (C26_evaluate).
* `C26_arguments` (Eval.lean): The value of `f[args]`, where nothing but the attributes of `f` is known: the arguments that the attributes do not hold are evaluated once each from left to right, the held ones stay as they are (even though they might have effects or not terminate).
* `C26_hold_all` (Eval.lean): With `HoldAll` or `HoldAllComplete` nothing is evaluated: the call is its own value and has no effect, whatever the arguments are (except the heads `Sequence`, `Evaluate`, `Unevaluated` where they are not held themselves).
* `C26_held_irrelevant` (Eval.lean): Two calls that differ only in arguments that are held have the same effects and values of the other arguments: no held argument is looked at.
* `C26_evaluate` (Eval2.lean): `Evaluate` overrides `HoldAll` (and `HoldFirst`, `HoldRest` where they hold the argument).

### C27 Redefinition overrides: last assignment wins  — partial
Definition table as a map, operations as transitions; induction over histories of operations.
*Result:* Proved for histories of definitions, attribute settings, clears and first mentions whose right sides for the symbol carry no condition, up to fingerprint collisions; C27_conditional_stays refutes it with a condition.
* `C27_last_wins_partial` (Defs.lean): After any history of definitions, attribute settings, `Clear`s and first mentions (starting without definitions) the value of `x` is the right side of the last assignment to `x` since the last `Clear[x]`, and it has none if there was no such assignment. …
* `C27_conditional_stays` (Defs.lean): is false with conditions: after `x := 1 /; c` and `x = 5` the value of `x` is still the conditional first one, because the rules are kept side by side and the first rule for a bare symbol is used whatever its condition.

### C28 Definitions with the same left side replace, others are kept  — proved
Single `Define` step on the rule list: positions, order by specificity, replacement of identical left sides.
*Result:* Left sides and conditions are identified by fingerprint, as in the code. Assignments to DownValues[..] are excluded from histories.
* `C28_rules` (Defs.lean): After any such history the rules of every name have pairwise different keys (fingerprint of the left side and conditions), the right side stored for a key is that of the most recent definition with the key, and exactly the keys defined since the last …
* `C28_conditions` (Defs.lean): conditions: what the second half of a key distinguishes. All right sides without condition are alike, whatever their value; a right side with a condition differs from all of them; two right sides `a /; c` and `b /; d` are alike exactly if `c` is `d` and …
* `C28_frame` (Defs.lean): frame. A definition changes the entry of no other symbol.
* `C28_rule_keeps_attributes` (Defs.lean): attributes. Defining a rule keeps the attributes, the default value and the builtin of the symbol.

### C29 Clear only affects the named symbol  — partial
`Clear`/`ClearAll` step; frame property.
*Result:* The effect is proved exactly; C29_attributes_lost shows that attributes, default and builtin implementation go too.
* `C29_clear_partial` (Defs.lean): `Clear[s1, s2, ...]` leaves every other symbol as it was; the named symbols that were known keep nothing, the others stay unknown.
* `C29_attributes_lost` (Defs.lean): `Clear[f]` also drops the attributes of `f`, and the implementation and attributes of a builtin (`Clear[Plus]`).

### C30 Concurrent definition lookups never crash  — partial
Threads as trees of atomic map operations; arbitrary schedules; invariant on the map for all interleavings.
*Result:* The stated claim (no missing entry) is proved for all schedules; C30_clear_crashes and C30_define_crashes refute crash freedom for the index into the rule list. Rule lists are values in the model (no sharing of backing arrays).
* `C30_no_missing_entry_partial` (Concurrent.lean): Any number of threads, any calls, any schedule, any initial table: no thread ever panics because an entry that it found present is missing when it is read.
* `C30_lookups_sequential` (Concurrent.lean): Lookups always have a sequential result.
* `C30_clear_crashes` (Concurrent.lean): is false for the index into the rule list: a lookup of `f[3]` running beside `Clear[f]` can panic, because the loop runs over the number of rules read at the start but reads the list again in every round.
* `C30_define_crashes` (Concurrent.lean): is false for the index even if nobody clears: three threads that only look up and define. A definition that read the list early writes it back short after two other definitions.

### C31 Concurrent definitions are never lost  — partial
Same model; disjointness by commuting operations; lost updates by explicit schedules.
*Result:* False for one symbol (C31_lost_update, C31_lost_first); proved for threads whose symbols no other thread writes (C31_disjoint_symbols_partial, C31_disjoint_progress).
* `C31_disjoint_symbols_partial` (Concurrent.lean): C31. A thread whose names nobody else writes is not affected by the other threads: under every schedule, once it has stopped it has not crashed, its lookups gave what they give sequentially, and the table holds for its names what the sequential execution …
* `C31_disjoint_progress` (Concurrent.lean): progress: such a thread does stop, under every schedule that gives it enough steps, whatever the others do.
* `C31_lost_update` (Concurrent.lean): is false for one symbol: `f[1] = 1` and `f[2] = 2` made concurrently; both threads finish and only one rule is left.
* `C31_lost_first` (Concurrent.lean): also the very first definitions of a symbol get lost.

### C32 Table enumerates the cartesian product in order  — proved
Iterator state machines and the `Table` loop (Model/Iter); enumerated list = product list by induction.
*Result:* For symbols as variables and iterators over lists or integer ranges whose bounds do not depend on earlier variables; C32_dependent shows that dependent iterators leave the call as it is. Table gives one flat list.
* `C32_rows` (Iter.lean): The rows are exactly the choices of one value per iterator.
* `C32_number` (Iter.lean): There are as many rows as the product of the numbers of values.
* `C32_order` (Iter.lean): The last iterator varies fastest: if the later iterators have `m` rows together, then row number `q m + r` consists of value number `q` of the first iterator and row number `r` of the later ones.
* `C32_table` (Iter.lean): `Table[body, {i₁, ...}, ..., {iₖ, ...}]`, for any number of iterators with symbols as variables: the body is evaluated once for every row of iterator values, in the order of nested loops with the last iterator innermost, with the variables assigned to the …
* `C32_do` (Iter.lean): `Do` visits the same rows in the same order, if no round throws or returns.
* `C32_sum` (Iter.lean): `Sum` starts with 0 and adds, by `Plus`, the value of the body for every row, in the same order; `Product` likewise with 1 and `Times`.
* `C32_sum_integers` (Iter.lean): The sum of integers: if the body has the integer values `i₁, i₂, ...` on the rows, then `Sum[body, ...]` is `i₁ + i₂ + ...` and `Product[body, ...]` is `i₁ i₂ ...`.
* `C32_empty` (Iter.lean): Nothing is visited if one iterator is empty: `Table` gives `{}` without evaluating the body (which is arbitrary here).
* `C32_dependent` (Iter.lean): An iterator whose bounds do not evaluate to numbers (for example because they mention an earlier iteration variable: the bounds are evaluated once, before any variable gets a value) makes `Table` return the call as it is, if it is not a list either.

### C33 Range iterators visit min, min+step, ... up to max  — proved
Range iterator with exact arithmetic; visited list against `min + k*step`.
*Result:* Integers; ranges of rationals and reals are not covered.
* `C33_progression` (Iter.lean): What `progression lo hi step` is, for `step > 0`: the numbers `lo + k step` (`k = 0, 1, ...`) that do not exceed `hi`, in this order, each once.
* `C33_range` (Iter.lean): `Range[lo, hi, step]` for integers with `step > 0` is the list of `lo, lo + step, ...` up to `hi` (see `C33_progression`); in particular `{}` if `hi < lo`.
* `C33_empty` (Iter.lean): A range that starts above its end is empty, whatever the step is: also `Range[5, 1, -1]` is `{}`.
* `C33_diverges` (Iter.lean): A range with a step that is zero or negative never ends unless it is empty from the start: `Range[1, 5, 0]` and `Range[1, 5, -1]` loop for ever.

### C34 Part never reads outside the expression  — proved
`Part` with Int64 truncation and bounds checks; totality and value.
*Result:* For argument lists shorter than 2^63; indices beyond 64 bits wrap (C34_huge_index).
* `C34_safe` (Lists.lean): `Part[e, i₁, i₂, ...]` never reads outside an expression, whatever the indices are.
* `C34_element` (Lists.lean): A single index: `f[x₁, ..., xₙ][[k]]` is `xₖ`, index 0 gives the head, and every other index that fits in 64 bits (negative ones too) leaves the call as it is.
* `C34_selects` (Lists.lean): Whatever the specification selects is what `Part` returns: any number of indices, ranges, `All`.
* `C34_huge_index` (Lists.lean): Indices beyond 64 bits are not rejected: they are reduced modulo 2⁶⁴. `{a, b}[[2⁶⁴ + 1]]` is `a`.
* `C34_span_zero` (Lists.lean): `expr[[0 ;; b]]` repeats the head as an element: `{a, b}[[0 ;; 1]]` is `{List, a}`.

### C35 PadRight/PadLeft produce the requested length  — proved
Padding loops; length by arithmetic.
*Result:* For lengths below 2^63; C35_odd_lengths gives the behaviour for negative and wrapped lengths.
* `C35_right` (Lists.lean): `PadRight[f[xs], n, x]` for `0 ≤ n < 2⁶³` has exactly `n` elements: the first `n` of `xs`, then `x`. Without `x`, zeros are used.
* `C35_left` (Lists.lean): `PadLeft[f[xs], n, x]` for `0 ≤ n < 2⁶³` has exactly `n` elements: `x` first, then the last `n` of `xs`.
* `C35_odd_lengths` (Lists.lean): For a negative length the result is empty, and lengths are reduced modulo 2⁶⁴: `PadRight[{a, b}, 2⁶⁴ + 1]` is `{a}`.

### C36 List set operations  — partial
Set functions of `builtin_list.go`; membership and uniqueness by induction, up to fingerprint equality.
*Result:* DeleteDuplicates, Complement, Intersection proved up to fingerprint collisions; Union proved when different elements are never tied; C36_union_repeats refutes it under ties.
* `C36_deleteDuplicates` (Lists2.lean): `DeleteDuplicates[f[xs]]` keeps exactly the first occurrence of every element, in order (up to fingerprint collisions).
* `C36_deleteDuplicates_collisions` (Lists2.lean): With colliding fingerprints it keeps one element for each fingerprint.
* `C36_complement` (Lists2.lean): `Complement[f[xs], f[m₁], f[m₂], ...]` is the sorted list without repetition of the elements of `xs` that are in none of the `mᵢ` (up to fingerprint collisions). `sort` is any function meeting the contract of the library sort.
* `C36_intersection` (Lists2.lean): `Intersection[f[xs], f[m₁], ...]` is the sorted list without repetition of the elements that are in `xs` and in every `mᵢ`.
* `C36_union_partial` (Lists2.lean): `Union[f[m₁], f[m₂], ...]` is the sorted list without repetition of all elements, if `SameQ` is equality on them, the order is a strict weak order on them and different elements are never tied.
* `C36_union_repeats` (Lists2.lean): `Union` can return an element twice: complex numbers with the same real part are tied in the order, so that equal elements need not be neighbours. `Union[{1+2I, 1+3I, 1+2I}]` returns its argument.
* `C36_different_heads` (Lists2.lean): C75. Arguments whose heads differ from the first one are not merged: the call stays as it is, wherever the different head is.

### C37 Cases and DeleteCases partition  — proved
`Cases`/`DeleteCases` at level 1 with the matcher as in C20; partition by induction.
*Result:* Partition, Count and MemberQ proved for all lists and patterns whose match returns; patterns of the form Rule[..] (Cases) are excluded.
* `C37_count` (Functional2.lean): `Count[f[xs], pat, {1}]` (the definition of `Count[f[xs], pat]`) is the length of `Cases[f[xs], pat]`.
* `C37_partition` (Lists2.lean): `Cases[f[xs], pat]` lists the elements that match and `DeleteCases[f[xs], pat]` keeps the others, both in order; one of the calls returns exactly if the other does (`pat` is not a rule).
* `C37_memberQ` (Lists2.lean): `MemberQ[f[xs], pat]` is true exactly if `Cases[f[xs], pat]` is not empty.
* `C37_rule` (Lists2.lean): `Cases[f[xs], lhs -> rhs]` lists, in order, for every element that matches `lhs` the right side with the names bound by that match replaced.
* `C37_memberQ_atom` (Lists2.lean): `MemberQ` of an atom is `False`.

### C38 Level-wise mapping touches exactly the requested levels  — partial
Level specifications and the recursive map; positions of a tree (Spec/Functional) and which of them are changed.
*Result:* Proved for nonnegative level ranges, for ranges of depths, for Infinity; C38_zero ({1,0}-like specifications), C38_mixed_wrong (mixed signs) and C38_simple_wrong refute it otherwise.
* `C38_levels_partial` (Functional.lean): Nonnegative levels: `Map`, `MapIndexed` and `Apply` with the level specification `{m, n}` (or `n` for `{1, n}`, `{n}` for `{n, n}`) act on exactly the subexpressions whose level is between `m` and `n`, and keep everything else; the only exception is `{1, …
* `C38_zero` (Functional.lean): `Map[f, e, 0]` (levels 1 to 0, no level at all) is not `e`: the function is applied at level 1.
* `C38_infinity` (Functional.lean): The level specification `Infinity` means all levels from 1, `{0, Infinity}` all levels, for expressions of depth below 2³¹.
* `C38_depths_exact` (Functional.lean): Specifications with a negative bound (depths), exactly: on a compound expression the function is applied at the selected positions, where atoms count as one level deeper than they are.
* `C38_depths` (Functional.lean): So the specification is right on compound expressions if both bounds are depths, or if the upper bound excludes atoms (`{m, n}` with `n ≤ -2`).
* `C38_mixed_wrong` (Functional.lean): The specifications that mix levels and depths are wrong for atoms: `Map[f, {a, {b}}, {2, -1}]` also maps `a`, which is at level 1; `Map[f, {a, b}, {-1, 1}]` maps nothing although `a` and `b` are at level 1 and have depth 1. A whole expression that is an …
* `C38_simple` (Functional.lean): `Map[f, h[x₁, ...]]` is `h[f[x₁], ...]`; `Apply[s, h[x₁, ...]]` for a symbol `s` is the value of `s[x₁, ...]`; atoms are returned.
* `C38_simple_wrong` (Functional.lean): Two failures of the forms with two arguments: `MapIndexed[f, e]` gives no positions to `f`, and `Apply` with a head that is no symbol, such as a pure function, does nothing.
* `C38_count` (Functional2.lean): `Count[e, pat, {m, n}]` is the number of subexpressions on the requested levels that match; nonnegative bounds other than `{1, 0}`.

### C39 Fold, Nest and friends  — proved
`Fold`, `Nest` and related loops with the evaluator as parameter.
*Result:* FoldList, NestList and Array; counts below 2^63.
* `C39_foldList` (Functional2.lean): `FoldList[f, x, h[a₁, ..., aₙ]]` has head `h` and `n + 1` elements; element number `k` (from 0) is the fold of the first `k` values.
* `C39_nestList` (Functional2.lean): `NestList[f, x, n]` for `0 ≤ n < 2⁶³` is `{x, f[x], ..., fⁿ[x]}`; a negative `n` leaves the call as it is.
* `C39_array` (Functional2.lean): `Array[f, n]` is `{f[1], ..., f[n]}` (empty for a negative `n`).

### C40 Integer partitions are complete  — proved
The partition generator; completeness and uniqueness against the set of descending lists with the given sum.
* `C40_complete` (NumTheory.lean): For `n ≥ 1`, `IntegerPartitions[n, k]` lists exactly the non-increasing lists of positive integers with sum `n` and at most `k` elements.
* `C40_nodup` (NumTheory.lean): No partition is listed twice; they come in decreasing lexicographic order.
* `C40_unbounded` (NumTheory.lean): Without a bound (`k = n`) every partition of `n` is listed.

### C41 Permutations are complete  — partial
The recursive permutation generator against the list of permutations.
*Result:* Proved for nonempty lists; false for the empty list (C41_not_empty).
* `C41_complete_partial` (NumTheory.lean): For a nonempty list, `Permutations` lists every rearrangement exactly once (repeated elements give no repeats).
* `C41_not_empty` (NumTheory.lean): is false for the empty list: the empty rearrangement is missing.

### C42 Factorial is correct and does not disturb its argument  — partial
`big.Int` cells: factorial loop with the in-place product; value `n!` and effect on the argument cell.
*Result:* The value is proved; the second half (argument unchanged) is refuted by C42_argument_destroyed.
* `C42_value_partial` (NumTheory.lean): `n!` is the factorial for `n ≥ 0`, `ComplexInfinity` for negative integers.
* `C42_argument_destroyed` (NumTheory.lean): second half, is false: the integer the argument referred to is overwritten with 0 for every `n ≥ 1` (`x = 5; x!; x` gives 0).

### C43 Prime factorisation is correct  — proved
Trial division loop with fuel; product, primality and order of the factors.
*Result:* Proved for n>=2 and n=1; C43_diverges shows the loop never ends for n<=0.
* `C43_factors` (NumTheory.lean): For `n ≥ 2` the factor list ends, consists of primes in non-decreasing order and has product `n`.
* `C43_one` (NumTheory.lean): `1` is special-cased to the (non-prime) factor list `{1}`.
* `C43_diverges` (NumTheory.lean): On zero and on negative numbers the factorisation loop never ends (the callers must exclude them).
* `C43_tallied` (NumTheory.lean): The tallied factorisation of `n ≥ 2`: distinct primes in increasing order, each with its positive multiplicity, and the product of the prime powers is `n`.

### C44 Mod and GCD  — proved
Euclidean `Mod`, `Quotient`, `GCD`, `LCM` by `Int` lemmas.
* `C44_mod` (NumTheory.lean): For `m ≠ 0`, `Mod[a, m]` is the unique integer in `[0, |m|)` congruent to `a` modulo `m`; for `m = 0` it is `Indeterminate`. (For negative `m` Mathematica would return a result with the sign of `m`; this code does not.)
* `C44_gcd` (NumTheory.lean): `GCD` of any list of integers is nonnegative, divides all of them and is divisible by every common divisor.
* `C44_gcd_unevaluated` (NumTheory.lean): `GCD` with a non-integer argument is left as it is.

### C45 Integer root extraction is exact  — proved
Root extraction loop over prime factors; exact power equation.
* `C45_root` (NumTheory.lean): For `n ≥ 2` the integer root search ends, never divides by zero, returns `k` with `k^n = x` if there is one and reports inexactness otherwise.

### C46 Dimensions / Transpose / Dot are safe and correct  — partial
`Dimensions`, `Transpose`, `Dot` on nested lists; shape predicate; crash theorems for ragged inputs.
*Result:* Shape, transposition (involution) and product proved for all full arrays; C46_dimensions_wrong, C46_transpose_crashes, C46_transpose_unevaluated, C46_dot_crashes refute safety for others.
* `C46_dimensions_partial` (Matrix.lean): `Dimensions` of a full array gives its dimensions, of an atom the empty list.
* `C46_dimensions_atom` (Matrix.lean): 
* `C46_dimensions_wrong` (Matrix.lean): Of arrays that are not full, `Dimensions` may be wrong: `{{{1}, {2}}, {3, 4, 5}}` is a list of two lists of different lengths, but has dimensions `{2, 3}`; `{{1, 2}, {{3}, {4}}}` has dimensions `{2, 2, 1}` although the entries 1 and 2 are no lists.
* `C46_transpose_partial` (Matrix.lean): `Transpose` exchanges rows and columns of a matrix with at least one row (entries that are themselves arrays of lists must have equal dimensions).
* `C46_transpose_twice` (Matrix.lean): Transposing twice gives the matrix again.
* `C46_transpose_crashes` (Matrix.lean): `Transpose` of a list of lists of different lengths may crash.
* `C46_transpose_unevaluated` (Matrix.lean): A rectangular matrix whose entries are lists of different lengths is not transposed.
* `C46_dot_partial` (Matrix.lean): `Dot` of an `m × k` and a `k × n` matrix (`m, k ≥ 1`) is an `m × n` matrix whose values are the entries of the matrix product, for every interpretation of the symbols (`Plus` and `Times` as sum and product).
* `C46_dot_vectors` (Matrix.lean): `Dot` of two vectors of the same length (without lists as entries) is their inner product; of vectors of different lengths it stays.
* `C46_dot_crashes` (Matrix.lean): `Dot` of a list of lists of different lengths that `Dimensions` takes for a matrix crashes.
* `C46_matrixQ` (Matrix.lean): `MatrixQ` of a full array of lists tells whether it has two dimensions, `VectorQ` whether it has one; both are false of everything else than a list.
* `C46_dot_mismatch` (Matrix.lean): `Dot` of matrices whose inner dimensions differ stays as it is.

### C47 Parsed expressions contain no parser artefacts  — proved
`interp.go` from parse trees to expressions; independent specification `reading` without placeholder; structural induction over parse trees.
*Result:* All parse trees over the modelled node kinds: parsing succeeds and leaves no placeholder, chains of associative operators are flat, comparison chains keep operands and operators, arithmetic has the right value, names keep their order. Hypothesis: the text does not mention the internal placeholder and f/: is followed by an unparenthesised assignment; C47_parens_crash and C47_tagset_crash show that the interpreter ends otherwise, C47_merged that an explicitly written comparison at the left end is merged. The grammar (modernc.org/wl) is not modelled.
* `C47_no_parens` (Parser.lean): **Parsing succeeds and leaves no trace of the parentheses.** Whatever the parse tree, if the text does not itself mention the name of the internal placeholder, the result exists and contains the placeholder nowhere.
* `C47_parens_crash` (Parser.lean): Without the hypothesis parsing can end the interpreter: `Internal`Parens[]`.
* `C47_flat` (Parser.lean): **Associative operators are flat.** `t0 op t1 op t2 ...` is parsed to one application of `op` to all the operands, in order; operands that are applications of `op` themselves stay as they are if they are in parentheses or not at the left end.
* `C47_comparison` (Parser.lean): **Chains of comparisons keep their operands and operators in order.** `t0 op1 t1 op2 t2 ...` is parsed to `op[e0, e1, ...]` if all operators are the same, otherwise to `Inequality[e0, op1, e1, op2, e2, ...]`.
* `C47_merged` (Parser.lean): Without the condition on the left end operands are merged: `System`Equal[a, b] == c` means `a == b == c`, not the comparison of a truth value with `c`.
* `C47_arithmetic` (Parser.lean): **Arithmetic means arithmetic.** A text built from `+`, binary and unary `-`, `*`, `/`, unary `+` and parentheses over arbitrary operands is parsed to an expression whose value is that of the arithmetic expression, where `Power[x, -1]` has the inverse of …
* `C47_names` (Parser.lean): **The names of the text are the names of the result**: in the same order, each as often as it is written, and no others (those that the parser adds are fully qualified).
* `C47_tagset_crash` (Parser.lean): `f /: (a = b)` ends the interpreter: the parentheses hide the assignment.
* `C47_reading` (Reading.lean): **The parser reads every text as specified**: for all parse trees the result is the one that the specification gives without any placeholder for parentheses.

### C48 Context resolution is deterministic and idempotent  — proved
Context resolution as a state transition over the table of names; induction over expressions.
*Result:* First defined context of the path wins, otherwise the current context; idempotent; C48_uniform states the conditions under which all occurrences of a name in one text get the same context and C48_not_uniform shows a state where they do not.
* `C48_name` (Context.lean): the name of a symbol is resolved as described: a name with a context stays, a short name becomes the one it stands for. The name resolved to is known afterwards, and nothing else changes for other names.
* `C48_idempotent` (Context.lean): after resolving, every symbol of the expression carries a context and is known, and resolving again changes neither the expression nor the state.
* `C48_uniform` (Context.lean): in an expression without explicit contexts every occurrence of a name is resolved alike, to what the name stands for in the state before; nothing but the symbols changes. Resolving the same expression again afterwards gives the same result.
* `C48_shape` (Context.lean): what resolving does in general (also with explicit contexts): only names change, names with a context stay, and a short name gets a context of the path or the current one.
* `C48_not_uniform` (Context.lean): is not uniform when an explicit context occurs: in ``{z, P`z, z}`` with ``P` `` on the path the first `z` is resolved to ``Global`z`` and the last to ``P`z``.

### C49 Output streams deliver to the addressed stream  — partial
Stream manager as a map from numbers to outputs; induction over histories.
*Result:* delivery proved for every history of calls except the bare name stderr (refuted: C49_stderr_lost) and stream numbers outside 64 bits (C49_number_cut); the library's Write is assumed to append everything
* `C49_delivery_partial` (Streams.lean): (partial: the first argument is not the bare name `"stderr"`, and stream numbers are in the 64 bit range). After any history of calls of `WriteString` with any arguments, each of the two outputs contains exactly what was there before followed by the texts …
* `C49_stderr_lost` (Streams.lean): fails for the bare name `"stderr"`: the text reaches no stream, and the call still reports success.
* `C49_value` (Streams.lean): the value of a call does not depend on whether anything was written: it is `Null` if the arguments are a string or a well-formed `OutputStream`, and a string, and the call itself otherwise.
* `C49_number_cut` (Streams.lean): stream numbers are cut to 64 bits, so a number that names no stream can reach one.
* `C49_streams_listed` (Streams.lean): `Streams[]` lists, in the order of the numbers, exactly the streams that can be written to, each once: every element addresses an output, and every output is addressed by exactly one element.

### C50 Unique names are fresh  — partial
`$ModuleNumber` loop; freshness invariant over histories of productions.
*Result:* every produced name is unknown before (C50_unique, C50_Unique, C50_Module); no name twice in any history if no stem ends in a digit (all Module locals) or the stems agree; refuted otherwise (C50_collision) and while definitions are frozen; Module shown for evaluators without effect on the state
* `C50_unique` (Unique.lean): in every state that is not frozen and has finitely many names, a fresh name is found: the stem followed by the least number from `$ModuleNumber` on that makes it unknown. Afterwards `$ModuleNumber` is one more than that number, and no other definition has …
* `C50_distinct_partial` (Unique.lean): (partial: no stem ends in a digit). However productions of fresh names by any stems (all local variables of `Module`s, `Unique[]`, and `Unique["p"]` where `p` does not end in a digit) and other actions that do not lower `$ModuleNumber` are interleaved, no …
* `C50_distinct_same_stem` (Unique.lean): with any stems, no name is produced twice from the same stem.
* `C50_collision` (Unique.lean): fails for stems ending in digits: `Unique["a1"]` with `$ModuleNumber = 1` and later `Unique["a"]` with `$ModuleNumber = 11` give the same symbol `a11`: a name made by `Unique` is not entered anywhere.
* `C50_frozen_repeats` (Unique.lean): fails while definitions are frozen (during pre-matching, with the command line flag `freezestateduringprematch`): `$ModuleNumber` is not advanced, so the next production from the same stem gives the same name again.
* `C50_Unique` (Unique.lean): `Unique["p"]` and `Unique[]` return a symbol that was unknown before, in context ``Global` ``.
* `C50_Module` (Unique.lean): `Module`. In a state with finitely many names and an evaluator without effects on it (`g` gives the values), `Module[{locals}, body]` returns the body with the local variables renamed, all at once, to names `x$m` that were unknown before and differ from …
* `C50_Module_fresh_in_body` (Unique.lean): The new names cannot be captured by the body: if all symbols of the body are known, none of the fresh names occurs in it.

### C51 Attribute sets round trip  — proved
Attributes as record of flags and sorted list of names.
* `C51_round_trip` (Defs.lean): The attributes read back after setting a list of names: sorted, without duplicates, exactly the known names of the list.
* `C51_set_then_get` (Defs.lean): through the user's operations: after `Attributes[s] = {a1, a2, ...}` (names of the `System` context), `Attributes[s]` gives the list of `C51_round_trip`, and no other symbol is changed.

### C52 Delayed definitions are re-evaluated on each use  — partial
Object-level evaluator (heap of cells with evaluated marks); invariants over evaluations of any length.
*Result:* False of the code (C52_delayed_stale, C52_rule_stale, C52_value_frozen); C52_functions_partial proves it for rules whose right side mentions a pattern name. Object-level model of a fragment of the evaluator.
* `C52_functions_partial` (EvalObj.lean): the part that holds. The right sides of definitions `f[x_, ...] := rhs` that mention one of their names are copied on each use: an evaluation, however long and of whatever expression, leaves every object of such a right side as it is, as long as no other …
* `C52_value_frozen` (EvalObj.lean): is false of the code: an expression that has come out of an evaluation is never evaluated again, whatever is defined afterwards (so the value assigned by `y = rhs` does not follow later assignments to the symbols in it).
* `C52_delayed_stale` (EvalObj.lean): is false of the code for `x := f[...]` when nothing is defined for `f`: the first use of `x` overwrites the stored right side with its value, and every later use gives the same value, whatever is assigned in between.
* `C52_rule_stale` (EvalObj.lean): is false of the code for `f[x_, ...] := g[...]` when the right side mentions none of the names and nothing is defined for `g`: the value of a call is the stored right side itself, overwritten with its value, and every later call with values as arguments …

### C53 Throw reaches the innermost enclosing Catch and leaves no residue  — partial
Throw state in the evaluator model; contexts of calls through which a throw passes, by induction.
*Result:* Proved for throws that reach Catch through evaluated arguments, statement sequences and Throw itself; C53_while_not_stopped refutes it for loops (While goes on, possibly for ever).
* `C53_catch_partial` (Eval.lean): A throw, however deep inside calls and statement sequences, is delivered to the enclosing `Catch`: `Catch[e]` has the thrown value, in a state without pending throw. The program to the right of the path to the `Throw` (`right` in `ThrowPath`) is arbitrary: …
* `C53_no_throw` (Eval.lean): Without a throw `Catch[e]` is `e`.
* `C53_pending` (Eval.lean): While a throw is pending, every call of a function that evaluates its head (no `HoldAll`, `HoldAllComplete`) does nothing but pass the throw on: in particular a second `Throw` does not replace the first, and `Catch` does not start.
* `C53_top_level` (Eval.lean): A throw that nobody catches ends at the top level: it is shown in `Hold` and no throw is pending afterwards.
* `C53_while_not_stopped` (Eval.lean): is false of the code for loops: `While` does not notice a throw in its body; if the condition still is `True` while the throw is pending, the loop never ends.

### C54 Timing aggregation  — partial
Counters as maps with arbitrary iteration order; induction over histories.
*Result:* times proved for every history of additions and merges; counts proved without merges, refuted with merges (C54_counts_lost, exact effect in C54_merge_counts_one); floating point rounding of the sums not modelled
* `C54_times` (Timing.lean): the time shown for a key is the sum of all times added under it in any history of additions and merges, in whatever order the merges visit the entries (times are added exactly).
* `C54_counts_partial` (Timing.lean): without merges the count shown for a key is the number of additions under it.
* `C54_merge_counts_one` (Timing.lean): what a merge does to the counts: every key of the other group counts as one call, however many there were.
* `C54_counts_lost` (Timing.lean): fails for the counts of a merged group: two calls are shown as one.
* `C54_report` (Timing.lean): the report. `sorted` are the different times, greatest first (the contract of the library's sort). The lines come in descending order of time, no key twice, each line shows the time and count of its key; if a key is left out, at least `n` lines are shown …

### C55 Canonical comparison is a total preorder on expressions  — partial
Total preorder by a key representation of expressions (lists of keys compared lexicographically), by induction on size.
*Result:* Proved for expressions in which the bare symbol Times is not an argument; C55_not_transitive shows a cycle otherwise.
* `C55_order_total_preorder_partial` (Order.lean): (partial: the symbol ``System`Times`` must not occur as an argument): the canonical comparison is a total preorder on expressions: total, transitive, and ties are interchangeable.
* `C55_not_transitive` (Order.lean): fails without the restriction: `Times[1,2]`, `Times[2,1]`, `Times[Times,1,1]` (unevaluated, as inside `Hold`) form a cycle of strict precedence.

### C56 Rational powers of integers keep their value  — partial
Factorised powers; principal complex value via Mathlib's `Complex.cpow`.
*Result:* Proved for nonnegative bases and for numerators 1,-1; C56_wrong_negative_base refutes the rest.
* `C56_value_partial` (NumTheory.lean): (part). An integer raised to a rational power `m/n` in lowest terms is rewritten without changing its (principal complex) value, for nonnegative bases and any iteration order of the internal map, and for negative bases if the numerator is `1` or `-1`.
* `C56_wrong_negative_base` (NumTheory.lean): is false for negative bases with another numerator: if `2^n` divides `x < 0` and `m ∉ {-1, 0, 1}` the rewritten expression has a different value (the extracted factor `2` is not raised to the power `m`).

### C57 PrimePi counts the primes  — partial
Counting with the contract of the prime library; Mathlib's `Nat.primeCounting`.
*Result:* Proved for n other than 1; C57_not_at_one refutes n=1, C57_wrapped integers of more than 64 bits.
* `C57_primePi_partial` (NumTheory.lean): (part). If the prime library returns the primes up to `n`, then `PrimePi[n]` is their number for every integer `n ≠ 1`.
* `C57_not_at_one` (NumTheory.lean): is false at `1`: `PrimePi[1]` is `1`, although there is no prime up to 1.
* `C57_wrapped` (Rest.lean): a disagreement: `PrimePi` also cuts its argument to 64 bits; `PrimePi[2^64]` is 0.

### C58 Digits reconstruct the number  — proved
Digit loop with fuel; `Nat.ofDigits`.
* `C58_digits` (NumTheory.lean): For every integer `n` and base at least 2, `IntegerDigits[n, b]` ends with digits below `b`, no leading zero, and `FromDigits[IntegerDigits[n, b], b]` is `|n|`.
* `C58_base_one_diverges` (NumTheory.lean): In base 1 (accepted by the pattern `base_Integer?Positive`) the loop never ends on a nonzero number.

### C59 Max and Min of numbers  — proved
`Max`/`Min` steps on sorted arguments.
* `C59_step` (Compare.lean): On sorted arguments consisting of numbers and then other expressions, `Max` keeps the last of the numbers and the others, `Min` the first of the numbers and the others.
* `C59_integers` (Compare.lean): `Max` of integers is the greatest, `Min` the least: for any result of the library sort, one or two steps of the builtin reach it.

### C60 Max terminates  — partial
Divergence: every step adds an argument; induction over steps.
*Result:* Negative result: the property is false of the code; C60_max_diverges proves that the loop never ends on such input.
* `C60_max_diverges` (Compare.lean): `Max` of two or more arguments none of which is a number never reaches a fixed point: however the arguments are reordered between steps, after `k` steps the expression has `k` more arguments than at the start (so evaluating `Max[a, b]` does not end).

### C61 Chained comparisons decide exactly the adjacent (or all) pairs  — proved
Chained verdict loops by induction on the arguments.
* `C61_equal` (Compare.lean): `Equal` is `True` exactly if the first argument is found equal to all others, `False` exactly if no comparison with the first is undecided and one fails.
* `C61_sameQ` (Compare.lean): `SameQ` is `True` exactly if all arguments are the same as the first; `UnsameQ` exactly if no two arguments at different positions are the same.

### C62 Patterns without arguments  — partial
Consequences of C18 at the level of `MatchQ`.
*Result:* Negative result: the property is false of the code; C62_matchq (any arguments match f[]), C18_no_forms and C62_orderless_no_forms_crashes prove the failures.
* `C62_orderless_no_forms_crashes` (Alloc.lean): With an `Orderless` head a pattern without elements makes the iterator fail (index out of range on the empty compatibility table) for every positive number of arguments: no number of steps lets it return normally.
* `C62_matchq` (Match.lean): at the level of `MatchQ`: a pattern without arguments under an ordinary head matches with any arguments.
* `C62_orderless_crash` (Match.lean): Under an `Orderless` head the interpreter crashes.

### C63 Replace and definitions use the first applicable rule  — partial
Rule application = instance relation plus condition; first applicable rule by induction over the rule list.
*Result:* Proved for covered patterns and expressions without machine reals whenever the call returns; C63_data_condition shows that data with head Condition is mistaken for a condition.
* `C63_rule_applies` (Replace.lean): One rule: if `replace` gives a result, the rule applies with it.
* `C63_rule_fails` (Replace.lean): One rule: if `replace` gives none, the rule does not apply.
* `C63_first_rule_partial` (Replace.lean): `Replace[e, {r1, ..., rk}]` uses the first rule that applies to `e` as a whole, and gives `e` back if none does.
* `C63_data_condition` (Replace.lean): has an unwanted side: a right side that happens to become data with head `Condition` is taken for a condition. `Replace[f[Condition[1, False]], f[x_] -> x]` leaves the expression alone, although the pattern matches.

### C64 ReplaceRepeated stops at the first stable result  — proved
`ReplaceRepeated` loop with fuel.
*Result:* es.Eval is a parameter; C64_flip_diverges proves that termination does not hold in general.
* `C64_first_stable` (Replace.lean): `e //. rules` returns `r` exactly if `r` is the first of the successive results of `/.` that is the same as the one before (at most `k` rounds).
* `C64_flip_diverges` (Replace.lean): termination fails: `f[1, 2] //. f[a_, b_] -> f[b, a]` runs forever.

### C65 Applying a pure function substitutes its arguments for the slots  — partial
Slots substitution against a specification of substitution under nested functions.
*Result:* Proved for arguments without slots (and no fingerprint collisions); refuted by C65_capture, C65_no_argument_crashes, C65_list_parameters_lost, C65_function_argument otherwise.
* `C65_slots_partial` (Replace.lean): Applying `body &` to arguments puts the `k`-th argument in place of every `#k` of the body, except inside nested pure functions, all at once; slots without argument stay. (The arguments contain no slots themselves and are not the bare symbols `Slot` and …
* `C65_named` (Replace.lean): one named parameter: `Function[x, body][a]` is `body` with `a` for `x`, except inside nested pure functions; further arguments are ignored.
* `C65_capture` (Replace.lean): slots in arguments are captured: `f[#1, #2]&[#2, 5]` gives `f[5, 5]`, not `f[#2, 5]`.
* `C65_no_argument_crashes` (Replace.lean): `Function[x, body][]` crashes, whatever the body.
* `C65_list_parameters_lost` (Replace.lean): functions with a list of parameters are not applied and lose their arguments: `Function[{x, y}, body][1, 2]` becomes `Function[{x, y}, body]`.
* `C65_function_argument` (Replace.lean): the head made by a replacement stops later ones: `#1[#2]&[Function, 5]` keeps the second slot.

### C66 Rules are tried from the most to the least specific  — proved
Specificity order on rules and insertion position; invariant of the rule list.
*Result:* Up to fingerprint collisions of conditions; the printed length of a left side is a parameter.
* `C66_rule_order` (Defs.lean): The rules of a name are ordered by decreasing specificity (single integer argument first, conditional rules 100, otherwise the printed length of the left side), and rules of equal specificity in the order in which their keys were first defined: redefining …
* `C66_specific_first` (Defs.lean): in terms of left sides: no rule whose left side has a printed length below 110 stands before a rule for a single integer argument (`f[3]`), and among unconditional rules without single integer argument none stands before one with a longer left side.

### C67 Repeating a definition changes nothing  — proved
Idempotence of a definition step, also while frozen.
* `C67_define_twice` (Defs.lean): `Define` is idempotent: repeating a definition changes nothing (`SetDelayed` defines twice).
* `C67_frozen` (Defs.lean): While the evaluator is frozen no definition has any effect.

### C68 Assignments to invalid left sides are rejected  — partial
Left sides for which the code stores something unreachable: theorems exhibiting them.
*Result:* Negative result: the property is false of the code.
* `C68_invalid_left_side_kills` (Defs.lean): An assignment to a number, a string or an expression whose head is not a symbol ends the process: nothing at all is returned. (`3 = 4`, `"a" = 1`, `f[1][2] = 3`.)
* `C68_head_with_value_kills` (Defs.lean): Since `SetDelayed` evaluates the head of its left side, `f = 3; f[x_] := 1` ends the process, for every evaluator that replaces `f` by its value.
* `C68_condition_on_left` (Defs.lean): `f[x_] /; c := r` does not define anything for `f`: the rule is stored under `Condition`.

### C69 Evaluation is idempotent  — partial
Fixed point of the evaluator model with exact comparison; induction on fuel.
*Result:* Proved without Return and effects, with exact fingerprints; C69_return_unevaluated refutes it with Return.
* `C69_idempotent_partial` (Eval.lean): Evaluating a result again gives the same result, in an environment whose functions and rules have no effects and in a program that does not use `Return`: `same` is the comparison of fingerprints, assumed exact.
* `C69_return_unevaluated` (EvalEx.lean): is false of the code with `Return`: if a rule for `f[args]` has the right side `Return[x]`, then the value of the call is `x` itself, not the value of `x`.

### C70 Flat functions are flattened  — partial
Flattening step of the evaluator.
*Result:* Built-in functions and rules get the flattened call (proved); C70_not_flattened refutes the rest.
* `C70_builtin_flat_partial` (Eval2.lean): What a built-in function of a `Flat` symbol is called with: the nested calls of the same symbol among the arguments are spliced. Here for a result that is a value different from the call.
* `C70_rule_flat_partial` (Eval2.lean): The same for rules: they are matched against the flattened call. Here for a right side that is not a compound expression.
* `C70_not_flattened` (Eval2.lean): is false of the code for a symbol that has nothing but the attribute: nested calls stay nested, since the expression with the spliced arguments is only given to the built-in function and to the rules, and then dropped.

### C71 The order of the arguments of an Orderless function does not matter  — proved
Orderless step: equal sorted forms give equal calls.
*Result:* For symbols that are only Orderless; library sort used through its contract, plus that it leaves its own result alone; uniqueness is up to ties (see C05, C55).
* `C71_sorted` (Eval2.lean): The value of `f[args]` for an `Orderless` symbol about which nothing else is known and arguments that are values: the same arguments, sorted. The assumption on `c.sort` is the contract of the library, and that it leaves its own result alone.
* `C71_order_irrelevant` (Eval2.lean): Two calls of such a symbol whose arguments are the same up to order have values whose arguments agree pairwise in the canonical order.

### C72 Unevaluated keeps its argument from being evaluated  — partial
`Unevaluated` handling in the argument loop: theorem about what happens.
*Result:* Negative result: the property is false of the code.
* `C72_unevaluated_lost` (Eval2.lean): `Unevaluated` protects its argument for one pass only: for a symbol about which nothing is known but attributes, which do not hold the argument, `f[Unevaluated[e]]` becomes `f[v]` with the value `v` of `e` if nothing else happens.
* `C72_hold_all_complete` (Eval2.lean): `Unevaluated` is taken away even inside a function with `HoldAllComplete`.

### C73 No input crashes the interpreter  — partial
Classes of inputs for which the model reaches a panic.
*Result:* Negative result: two classes of crashing inputs are proved; absence of other crashes is not claimed.
* `C73_empty_head_panics` (Eval2.lean): is false of the code: a call without arguments whose head is not a symbol and evaluates to `Sequence[]` is left without any part, and the interpreter indexes the empty list of parts.
* `C73_empty_compound_panics` (Eval2.lean): so does `;` without statements, `CompoundExpression[]`.

### C74 Iteration variables are restored  — partial
Saving and restoring of iteration variables around loops, in the definition table.
*Result:* Proved for plain old values; C74_rules_lost and C74_throw_leaks prove the two failures.
* `C74_restored_partial` (Iter.lean): When the loop ends normally (in the state `st2`, having started in `st1`), putting back the variables succeeds, every iteration variable has the value it had before (or none), and no other symbol is touched; provided the old values and the present rules of …
* `C74_table` (Iter.lean): for `Table`: the call ends in a state in which every iteration variable has the value it had when the iterators had been read, and every other symbol is as the last round left it (`hnr`, `hd`: no rule of `Table`, and the list of the values is a value, in …
* `C74_rules_lost` (Iter.lean): But an iteration variable that had no value loses everything else: `f[x_] := x; Table[1, {f, 3}]` deletes the rules of `f`, and its attributes.
* `C74_throw_leaks` (Iter.lean): A `Do` that is left by a throw does not put back its variables: the final state is the state of the throw, in which the variables have the values of that round (`Catch[Do[Throw[1], {i, 5}]]` leaves `i = 1`).

### C75 Append, Prepend, Reverse and Join  — proved
List functions against list operations.
* `C75_surgery` (Lists2.lean): `Append`, `Prepend` and `Reverse` give exactly the expected elements, for any head.
* `C75_join` (Lists2.lean): `Join[f[m₁], f[m₂], ...]` is `f[m₁, m₂, ...]`; so its length is the sum of the lengths. `Join[]` is `{}`.

### C76 Flatten splices nested calls of the same head  — proved
`Flatten` against a recursive specification with depth.
*Result:* Heads are compared by fingerprint: proved when the fingerprint identifies h among the heads that occur; default level count is 999999999999, so depth is assumed below it.
* `C76_levels` (Functional3.lean): `Flatten[h[as], n]` for `0 ≤ n < 2⁶³` is the result of `n` rounds of splicing arguments with head `h`.
* `C76_complete` (Functional3.lean): `Flatten[h[as]]` of an expression of depth at most 10¹² - 1 contains no argument with head `h` any more, and is the result of finitely many rounds of splicing.

### C77 NestWhileList stops at the first value that fails the test  — partial
`NestWhileList` loop against the iteration sequence.
*Result:* Proved for evaluators without effects; C77_start_untested and C77_limit prove the two failures.
* `C77_nestWhile_partial` (Functional4.lean): `NestWhileList[f, x, test, m]` with an evaluator without effects lists `x, f[x], ..., fⁿ[x]`, where `n ≥ 1` is the first number for which there are `m` values and the test of the last `m` of them is not `True`.
* `C77_start_untested` (Functional4.lean): Without a count the test sees one value, but the starting value is never tested: if the test fails on every value, the result is `{x, f[x]}` instead of `{x}`.
* `C77_limit` (Functional4.lean): A limit `max ≥ 1` on the number of applications is kept; the limit 0 is not: `f` is applied once.

### C78 Select and Scan visit the elements in order  — proved
`Select`/`Scan` loops over an evaluator with effects on the state.
*Result:* Lists shorter than 2^63.
* `C78_select` (Functional2.lean): `Select[h[xs], f]` keeps, in order, the elements whose test gives `True`; with a limit `n` it stops after the `n`-th one and the tests behind it are not evaluated.
* `C78_scan` (Functional2.lean): `Scan[f, h[xs]]` evaluates `f` on the elements in order and returns `Null`; a `Return[v]` ends it with `v`, a throw ends it too; the elements behind are not visited.

### C79 FixedPoint stops at the first repetition  — proved
`FixedPoint` loop with fuel.
*Result:* Sameness is SameQ of the code (fingerprints).
* `C79_fixedPoint` (Functional2.lean): `FixedPoint[f, x]` returns `v` (in state `st'`) for some number of rounds exactly if `v` is the first of the values `f[x]`, `f[f[x]]`, ... that is the same as the one before.

### C80 Distribute multiplies out  — proved
`Distribute` against the product of lists.
*Result:* Heads are compared by fingerprint: proved when no head collides with g.
* `C80_distribute` (Matrix.lean): `Distribute[f[as], d]` is the call of `d` on all calls of `f` that arise by choosing an argument from each argument that is a call of `d`, in order.
* `C80_count` (Matrix.lean): The number of terms is the product of the numbers of choices.
* `C80_choices` (Matrix.lean): A list is one of the choices if and only if it takes an element from each list.

### C81 Chained comparisons mean the conjunction of their parts  — partial
`Inequality` loop against the meaning of a chain in a linear order.
*Result:* Proved for operators <,<=,>,>=: verdicts are right, results follow from the chain, decided chains get their truth value, changes of direction split equivalently; C81_comparison_lost and C81_equal_wrong refute equivalence and chains with ==. es.Eval is a parameter whose verdicts are assumed right.
* `C81_follows_partial` (Inequality.lean): A chain of `<`, `<=`, `>`, `>=` becomes a statement that follows from the chain; in particular `False` is right. (`p` is the meaning of the result.)
* `C81_right` (Inequality.lean): `True` and `False` are only returned for chains of `<`, `<=`, `>`, `>=` that are true resp. false.
* `C81_decided` (Inequality.lean): If every comparison can be decided, a chain of operators of one direction evaluates to its truth value.
* `C81_split` (Inequality.lean): A change of direction splits the chain in two with the same meaning: `a < b > c` is `a < b && b > c`.
* `C81_comparison_lost` (Inequality.lean): Parts of the statement are lost: `x < 1 < 2 < y` becomes `x < 1 < y`, which does not imply it.
* `C81_equal_wrong` (Inequality.lean): With `==` the verdict may be wrong: `1 == 1 < 2` is `False`.

### C82 Pattern tokens mean what they say  — proved
Tokens as character lists, `strings.Contains`/`Split` modelled; cases.
*Result:* All underscore-free names and heads. C82_odd records the results for a point after several underscores and for more than three underscores.
* `C82_pattern` (PatternToken.lean): **Pattern tokens.** For names `x` and `h` without underscores (either may be missing), `x` followed by one, two or three underscores and `h` is the pattern with that name, the kind of blank with that number of underscores and that head. Only `h = "."` …
* `C82_optional` (PatternToken.lean): **Optional patterns.** `x_.` is the optional pattern `x_`.
* `C82_distinct` (PatternToken.lean): **Different patterns from different texts**: name, number of underscores and head can be read off the result.
* `C82_odd` (PatternToken.lean): After two or three underscores the point is taken for a head: `x___.` is `x` with a head named `.`; four underscores are a blank with a head named `_`; six are an error-valued result.
* `C82_parsed` (PatternToken.lean): A pattern token in an expression, as it is parsed.

### C83 FullForm output reads back as the same expression  — proved
`StringForm` for FullForm against a reader for the plain notation; induction over the expression; names by C48.
*Result:* Reading is specified by a small reader for the plain notation (the grammar of modernc.org/wl is not in the repository). The disagreements are theorems: C83_hidden, C83_nested_context, C83_unescaped, C83_negative_head, C83_format_vanishes.
* `C83_fullform` (Print.lean): `FullForm` of an expression without real and complex numbers is its plain text, whatever builtins exist: `head[arg, arg, ...]` all the way down. The only exceptions are the format wrappers.
* `C83_symbol` (Print.lean): a symbol is printed with the first of the current context and the contexts of the path that it carries removed, otherwise in full.
* `C83_symbol_back` (Print.lean): the printed name of a symbol, read again, is the symbol exactly under the condition `comesBack`.
* `C83_readback` (Print.lean): **what is printed in `FullForm` is read back as the same expression**. The text is read in exactly one way, and the parser and the resolution of names make the original expression of it (with `Rational[n, d]` for rational numbers, as before evaluation), …
* `C83_unambiguous` (Print.lean): two expressions with the same `FullForm` text are the same, up to the notation of rational numbers, if their names come back.
* `C83_hidden` (Print.lean): (refutation) a symbol hidden by another one is printed without its context, and read back as the other: ``Global`Plus`` is printed `Plus`.
* `C83_nested_context` (Print.lean): (refutation) a symbol in a context inside the current one is printed as if it were in a context of its own, and never comes back.
* `C83_unescaped` (Print.lean): (refutation) strings are not escaped, so that a call with one string and a call with two strings have the same text.
* `C83_negative_head` (Print.lean): (refutation) a negative number as a head is printed without parentheses: `(-5)[x]` is printed like `-(5[x])`.
* `C83_format_vanishes` (Print.lean): (refutation) a format applied to one argument leaves no trace in the text, even inside an expression: it only switches the format.

### C84 InputForm puts enough parentheses  — partial
`toStringInfix` and friends against a precedence-climbing reader with the same precedences; induction over the expression with a statement about every previous head.
*Result:* Proved for the described fragment (C84_readback_partial, C84_unambiguous). Outside it the property is false: (-2)^x, (a + b)[x], (a/b)^c and y*x^(2^64-1) are printed ambiguously, and Plus[a, empty text] crashes the printer in OutputForm. Rationals, reals, complex numbers and patterns as parts of operator expressions are not covered.
* `C84_readback_partial` (PrintInput.lean): **`InputForm` puts enough parentheses**. An expression built from names, integers, strings, lists, calls and the operators is printed as a text that is read in exactly one way by a reader that knows only the precedences, and the parser and the resolution …
* `C84_unambiguous` (PrintInput.lean): two expressions with the same `InputForm` text are equal, if their names come back.
* `C84_negative_base` (PrintInput.lean): (refutation) a negative base is not put in parentheses, so `(-2)^x` is printed like `-2^x`.
* `C84_operator_head` (PrintInput.lean): (refutation) an operator in the place of a head is not put in parentheses, so `(a + b)[x]` is printed like `a + b[x]`.
* `C84_quotient_base` (PrintInput.lean): (refutation) a quotient is not put in parentheses, so `(a/b)^c` is printed like `a/b^c`.
* `C84_huge_exponent` (PrintInput.lean): (refutation) the exponent of a factor is compared modulo `2 ^ 64`, so `y*x^(2^64 - 1)` is printed like `y/x`.
* `C84_empty_text_crash` (PrintInput.lean): (refutation) a sum with an empty text as an operand crashes the printer.
* `C84_signs` (PrintInput.lean): in a sum of integers every negative summand after the first is written with a minus sign of its own: `Plus[3, -4, 5]` is `3 - 4 + 5`.
* `C84_power_chain` (PrintInput.lean): (refutation) a power with three arguments is printed with two operators, like a nested one.

### C85 String functions compute with the whole text and never crash  — partial
Strings as lists of bytes; induction over the argument list or the string; the wrap of positions through `wrap64`; refutations as closed terms.
*Result:* StringJoin, StringTake and StringReplace are proved for all byte strings. The promise about characters holds only for ASCII: C85_length_wrong shows StringLength of one non-ASCII character is 2, C85_take_splits that StringTake cuts a character in half, C85_take_wrapped that a position beyond 64 bits is wrapped and accepted. strings.Replace of the Go library is modelled from its documentation.
* `C85_join` (Strings.lean): `StringJoin` of strings is their concatenation; with any other argument it stays unevaluated.
* `C85_length_partial` (Strings.lean): `StringLength` counts bytes: it is the number of characters exactly for texts of ASCII characters, and greater for all others. The length of a concatenation is the sum.
* `C85_length_wrong` (Strings.lean): (refutation) `StringLength["π"]` is 2.
* `C85_take_total` (Strings.lean): `StringTake` never crashes.
* `C85_take` (Strings.lean): `StringTake[s, {m, n}]` is the part from the `m`-th to the `n`-th byte, empty for `n < m`, and stays unevaluated if `m < 1` or `n` is greater than the length. For numbers in the 64 bit range, the least one excepted.
* `C85_take_ascii_partial` (Strings.lean): for a text of ASCII characters the part from the `m`-th to the `n`-th character is taken.
* `C85_take_recombines` (Strings.lean): a string is the concatenation of a front part and the rest, wherever it is cut.
* `C85_take_splits` (Strings.lean): (refutation) a character that is not ASCII is cut in two; the result is the encoding of no text.
* `C85_take_wrapped` (Strings.lean): (refutation) bounds are cut to 64 bits, so `StringTake["hello", {1, 2^64 + 1}]` is `"h"`, although there is no such part.
* `C85_replace` (Strings.lean): `StringReplace[s, old -> new]` replaces every instance of `old`, found from the left, and changes nothing else: the string is cut at these instances (in exactly one way) and joined again with `new` in between.
* `C85_replace_nothing` (Strings.lean): in particular nothing happens if `old` does not occur, or if `old` is replaced by itself.
* `C85_replace_empty` (Strings.lean): the empty string occurs in front and after every character (`wid` gives the number of bytes of the first character).

### C86 Head, Length, Depth and LeafCount describe the tree of the expression  — proved
`calcDepth`, `leafCount` against the set of paths of an expression; induction over the expression.
*Result:* For every expression, against an independent notion of places in a tree (PartAt).
* `C86_leafCount` (Structure.lean): `LeafCount[e]` is the number of places in `e`, heads included, at which there is an atom.
* `C86_depth` (Structure.lean): `Depth[e]` is one more than the length of the longest way from `e` through arguments down to an atom; a call without arguments counts as if something were below it.
* `C86_length` (Structure.lean): `Length[e]` is the number of arguments: there is a part number `i ≥ 1` exactly for `i` up to the length; atoms have length 0.
* `C86_head` (Structure.lean): `Head[e]` is part 0 of a compound expression, and the name of the type of an atom. It crashes only on an expression without any part.
* `C86_simplifyCount` (Structure.lean): the size by which `Simplify` compares two forms is never below `LeafCount`, and equal to it if no sign, quotient or complex number occurs.

### C87 Reap returns what was sown, in order  — partial
`Sow`, `Reap` as commands of the evaluator; a relation kept by every evaluation (induction over the fuel); an interpreter that avoids `Reap`; big-step lemmas for calls and statements.
*Result:* C87_reap_partial, C87_sow, C87_arguments, C87_statements give what is collected, and in which order, for programs built from Sow, function calls and statements; C87_nothing_lost holds for every program that does not call Reap. C87_nested_wrong refutes the property for a Reap inside a Reap. Concurrency (ParallelTable) is not covered.
* `C87_nothing_lost` (Sow.lean): whatever is evaluated, as long as no `Reap` is evaluated nothing that has been sown is lost or reordered, and nothing starts to be recorded by itself.
* `C87_reap_partial` (Sow.lean): `Reap[e]` is `{v, {l}}` where `v` is the value of `e` and `l` the list of what `e` has sown, in order; what was sown before plays no part.
* `C87_sow` (Sow.lean): `Sow[e]` has the value of `e` and records it, behind what `e` itself sows.
* `C87_arguments` (Sow.lean): the arguments of a function sow from left to right; held arguments sow nothing.
* `C87_statements` (Sow.lean): statements sow one after the other; the value is that of the last one.
* `C87_nested_wrong` (Sow.lean): is false of nested calls: an inner `Reap` throws away what the outer one has collected so far. `Reap[Sow[1]; Reap[Sow[2]]; Sow[3]]` is `{3, {{3}}}`, the 1 is lost.
* `C87_outside` (Sow.lean): outside of `Reap` nothing is recorded.

### C88 Names lists exactly the known names that match  — partial
The pattern is turned into a regular expression of a sublanguage with a matcher; induction over the pattern against wildcard matching.
*Result:* Proved for patterns of ordinary characters and stars (C88_names_partial, C88_all). C88_dollar_wrong and C88_dot_wrong are disagreements of the code. Other regular expression syntax in a pattern is not modelled (some of it crashes).
* `C88_names_partial` (Files.lean): `Names["pattern"]` lists the known names that match the pattern, each once, in order; `*` stands for any characters.
* `C88_all` (Files.lean): `Names[]` lists all of them.
* `C88_dollar_wrong` (Files.lean): is false of patterns with a dollar sign, which is legal in names: ``Names["System`$Context"]`` finds nothing, whatever is defined.
* `C88_dot_wrong` (Files.lean): a dot in the pattern stands for any character.

### C89 A file is run statement by statement  — partial
The loops of `EvalInterpMany` and `ReadList` over an arbitrary reader; induction over the run of the text.
*Result:* The parser generated from the grammar is a parameter, so the theorems hold for every reader. C89_error contains the disagreement: with fewer than 100 bytes left after a syntax error the code panics.
* `C89_runs_partial` (Files.lean): a file is run statement by statement, in order, each in the state left by the ones before; the value is that of the last one, `Null` for an empty file. `ReadList` gives all values in order.
* `C89_error` (Files.lean): at a syntax error the statements before it have been run and those behind it are not; but this is survived only if at least 100 bytes are left, otherwise the interpreter crashes.
* `C89_only` (Files.lean): conversely, if running the file finishes, it ran statements to an end of the text or to an error.

### C90 Matching and rules keep the meaning of expressions  — partial
An interpretation (Spec/Meaning) gives every function an operation on an arbitrary domain; `fill` puts the bindings into the pattern. From the soundness of matching (C20) by induction on the pattern: the value of the filled pattern is that of the expression, using the laws that the attributes promise. Rules follow with C22.
*Result:* Proved for the covered patterns (every blank has a name, optional arguments only last unless the function is Orderless, default values those of the function), expressions without machine reals, and as long as no two different expressions that are compared have the same fingerprint (C09 shows that this cannot be dropped). The interpretation is arbitrary.
* `C90_match_keeps_meaning_partial` (Meaning.lean): If `e` matches the pattern `p`, then `p` with the values of its names put in has the value of `e`, in every interpretation that agrees with the attributes and default values of the functions in `p`. (Covered patterns, `e` without machine reals, no …
* `C90_rule_keeps_meaning_partial` (Meaning.lean): for rules. If the two sides of a rule have related values for all bindings of the names, then the rule replaces an expression by one with a related value. (The same conditions.)

### C91 Evaluation keeps the mathematical value  — partial
The evaluator of Model/Eval with the functions of Model/Algebra and the rules of the table; values in the complex numbers as partial functions (Spec/Algebra). Proved from the general preservation theorem eval_meaning, with refinement of partial values as the relation: every builtin function, flattening, sorting and every sound rule refines the value.
*Result:* Exact numbers only; Plus, Times, Power, Rational and Complex as modelled, other builtin functions only through rules; conditions and tests are a given predicate that does not change the state; accidents of fingerprints and the wrong powers of C56 are excluded by a guard on the evaluation (the example shows an evaluation that passes all checks).
* `C91_eval_keeps_value_partial` (Algebra.lean): Evaluation keeps the value: whatever complex numbers the symbols stand for, if the expression has a value, the result has the same value. (Exact arithmetic, a table of sound rules, and every function called in the evaluation is called without an accident: …

### C92 The algebraic rules that come with the interpreter are right  — partial
The rules are written down in Model/ShippedRules as SetDelayed stores them. Spec/Standard gives the elementary functions their usual complex values (partial functions). Each rule is proved to keep the value for all bindings of its variables (Proofs/Shipped1-4), using what the matcher guarantees about the bindings (C90); the table of all of them is then sound in the sense of C91.
*Result:* 76 rules are covered (Shipped.rulesFor, with source lines). Not covered: rules with unnamed blanks or alternatives (Power[_, 0] and the like), with Which, Switch, If or Module on the right side, with machine reals, and the rules that are wrong (C93). Tests and conditions are a predicate that is only assumed to be sound; accidents of fingerprints are excluded as in C91.
* `C92_rule_keeps_value_partial` (Shipped.lean): If a rule of `power.m`, `arithmetic.m` or `trig.m` (those of `Shipped.rulesFor`) applies to an expression and gives `r`, then `r` has the value of the expression, if it has one: for all complex numbers the symbols may stand for, with the usual meaning of …
* `C92_eval_with_shipped_rules_partial` (Shipped.lean): Evaluation with these rules, in any order, keeps the value.

### C93 Which of the remaining shipped rules are right, and where they are wrong  — partial
The rules are written down as in C92; evaluation of a concrete expression by the interpreter of C91 is computed by the kernel, and the values of both sides are shown to differ in the complex numbers (Props/ShippedWrong). The restricted rules are proved for all expressions.
*Result:* Seven rules are refuted by evaluations of the modelled interpreter with the rule in its table (theorems C93_wrong_*); the restrictions under which five of them are right are proved. No restricted form is given for the rules for Cot (right for exactly one other term) and for Log[1/b], whose right side contains a name that is not in the left side. The precedence of the pattern in power.m:54 is that of the Wolfram language (the grammar is an external dependency); the other reading gives the same result.
* `C93_wrong_nested_power` (ShippedWrong.lean): `(x^(3/2))^(2/3)` evaluates to `x`; for `x = -1` the value is not `-1`.
* `C93_wrong_number_factor` (ShippedWrong.lean): `(-2 x)^(1/2)` evaluates to `(-2)^(1/2) x^(1/2)`; for `x = -1` the value is not `2^(1/2)`.
* `C93_wrong_product_of_roots` (ShippedWrong.lean): `(-2)^(1/3) (-3)^(1/3)` evaluates to `6^(1/3)`.
* `C93_wrong_exp_log` (ShippedWrong.lean): `E^(Log[x] + y + z)` evaluates to `x E^(y^z)`, the power with three arguments.
* `C93_wrong_cot_of_sum` (ShippedWrong.lean): `Cot[-x + y + z]` evaluates to `-Cot[x - y z]`.
* `C93_wrong_log_exp` (ShippedWrong.lean): `Log[E^(5 I)]` evaluates to `5 I`, which is not the principal value.
* `C93_wrong_log_fraction` (ShippedWrong.lean): `Log[1/2]` evaluates to `-Log[a]` with a new symbol.
* `C93_nested_power_integer` (ShippedWrong.lean): The rule for a power of a power is right for an integer exponent.
* `C93_number_factor_positive` (ShippedWrong.lean): The rule for a power of a product is right for a positive number.
* `C93_product_of_roots_positive` (ShippedWrong.lean): The rule for the product of two roots is right if the first number is positive.
* `C93_exp_log_one_term` (ShippedWrong.lean): The rule for an exponential of a sum is right for one other term.
* `C93_log_exp_strip` (ShippedWrong.lean): The rule for a logarithm of an exponential is right for an exponent between `-Pi` and `Pi` in the imaginary part, so for every real one.

### C94 D computes the derivative  — partial
The rules of D as data (Model/DiffRules); expressions denote functions of x defined on open dense sets (Spec/Diff), D denotes differentiation; each rule keeps this meaning (Proofs/DiffRules), by analyticity of all values on open dense sets (Proofs/Generic, DiffMeaning, DiffFun); evaluation keeps it by the induction of C91 (Proofs/DiffEval).
*Result:* Proved for evaluations in which the conditions of C91 hold (no machine reals, no coincidence of fingerprints), in which D is not applied to a power whose base is constantly 0 (D[0^x, x] is wrong), and in which no function is called on a derivative left uncomputed. Not covered: the chain rule for an arbitrary function (calculus.m:9), Abs (line 12, wrong: Derivative[1][Abs][x] without the inner derivative), Exp and lists (16, 17). FreeQ is a parameter assumed to say True only when the symbol does not occur. Examples evaluate D[x Sin[x], x] and D[x^2, x] with all conditions checked.
* `C94_derivative_partial` (Diff.lean): If `f` has a value for all values of `x` in an open dense set of complex numbers, and `D[f, x]` evaluates to an expression `g` without `D`, then on an open dense set `f` has values `F z`, the function `F` is differentiable, and `g` has the value of its …
* `C94_derivative_on_partial` (Diff.lean): on a set. If moreover `f` has the values `φ z` on an open set, and `g` has values `γ z` there that depend continuously on `z`, then `φ` is differentiable there and `γ` is its derivative, if `φ` is continuous.

### C95 A Graphics expression shows its lines in the right style  — proved
Model graphics.go as a function from expressions to the list of series (Model/Graphics). Specification by places in the tree (picAt, inForce, penUnder in Spec/Graphics). Prove by induction on the picture, with the style pointer as a threaded value.
*Result:* The conversions of reals to 8 bit channels and to doubles and the drawing library are parameters. C95_exact_fails: a line with an exact (integer) coordinate makes the whole export fail.
* `C95_lines` (Graphics.lean): **C95, what is drawn.** A rendered chart has one series for every `Line` of the picture, in the order in which the lines stand in it, through the points of that line and in the style that the directives in force at that place say: the last colour, opacity …
* `C95_renders` (Graphics.lean): **C95, when it is drawn.** An expression is rendered exactly if it is `Graphics[picture, …]`, all lines of the picture go through points with real coordinates and all colours, opacities and thicknesses have real arguments; everything else in a picture is …
* `C95_exact_fails` (Graphics.lean): **C95, exact numbers are refused.** A picture with a line through a point with an exact coordinate cannot be exported at all, although the coordinate is a number: `ExportString` gives `$Failed`.
* `C95_export` (Graphics.lean): **C95, export.** `ExportString[g, "png"]` hands exactly the rendered chart to the drawing library and gives its answer.
* `C95_example` (Graphics.lean): Both lines are drawn; the colour does not leave the inner list.

### C96 An interrupt ends the running evaluation and nothing else  — partial
The flag is a component of the state of Model/Eval; show by the relation FlagStays that evaluation keeps it, by induction on expressions that rule programs terminate with it, and look at topLevel for the next input.
*Result:* Proved: programs made of rules end after an interrupt, whatever the rules are (C96_rules_stop_partial, the demo program runs for ever without it), calls are aborted before their right side is touched, While ends after at most one more round, the flag stays during the evaluation and is cleared by an ordinary result. Refuted: symbols whose value contains themselves run on for ever (C96_symbol_not_stopped), and after an uncaught Throw the flag is kept and aborts the next inputs (C96_throw_keeps_flag). The arrival of the signal is not a step of the model: it is a function call that sets the flag.
* `C96_flag_stays` (Interrupt.lean): **C96, the flag stays.** During an evaluation nothing takes back the interrupt, if none of the called functions does.
* `C96_flow_keeps_flag` (Interrupt.lean): The control structures of the language (`Throw`, `Catch`, `CompoundExpression`, `While`, `Which`, `If`) do not take the interrupt back, so `C96_flag_stays` applies to them.
* `C96_rules_stop_partial` (Interrupt.lean): **C96, rules are stopped.** Once the evaluation is interrupted, every expression built from calls gets a value after finitely many steps, whatever the rules are (also rules that call themselves for ever), and the state stays as it is.
* `C96_call_aborted` (Interrupt.lean): **C96, a call is aborted before its right side is touched.** If the evaluation is interrupted, a call to which a rule applies has the value `$Aborted`, and nothing in the right side has been evaluated: the state is as before.
* `C96_while_stops` (Interrupt.lean): **C96, `While` is stopped.** Once the evaluation is interrupted, `While` evaluates its test and its body at most once more, and then its value is `$Aborted` (or `Null` if the test ended it).
* `C96_next_input` (Interrupt.lean): **C96, the session goes on.** After an input that ended without an uncaught `Throw`, the interrupt is forgotten.
* `C96_throw_keeps_flag` (Interrupt.lean): **C96 fails after an uncaught `Throw`.** The interrupt is not forgotten: it hits the next inputs. Every call to which a rule applies is aborted then, although nobody has interrupted it, until an input ends without `Throw`.
* `C96_symbol_not_stopped` (Interrupt.lean): **C96 fails for values of symbols.** A symbol whose value contains the symbol itself (`x := h[x]`) is evaluated for ever even if the evaluation is interrupted: the flag is only looked at after the value has been evaluated.

### C97 Save and Get restore definitions  — partial
Model Save, Get and tryReadFile over a disk (names to bytes) with the codec as a parameter (Model/Save); the faithful codec is a hypothesis. Prove the round trip by induction on the list of names.
*Result:* C97_roundtrip_partial, for symbols without a function of the interpreter and if the file is found; C97_refused. Refuted otherwise: a saved builtin loses its function on loading (C97_builtin_lost), Save answers Null if the file cannot be created (C97_unwritable), and Get prefers a file of the same name in a directory of $Path (C97_shadowed). The libraries gob and zlib are parameters, assumed to read back what they write except functions.
* `C97_roundtrip_partial` (Save.lean): **C97, the round trip.** If `Save[fn, {names}]` has written a file, `Get[fn]`, in whatever session, gives every one of these names the rules, attributes and default value it had when it was saved, and changes no other name. No other file is touched.
* `C97_refused` (Save.lean): **C97, all or nothing.** If one of the names is unknown, or there are none, nothing is written and the call is returned as it is.
* `C97_builtin_lost` (Save.lean): **C97 fails for the functions of the interpreter.** Saving a symbol with a built-in function and loading it again, even in the same session, takes the built-in function away.
* `C97_unwritable` (Save.lean): **C97 fails silently.** If the file cannot be created, `Save` says `Null` as if it had saved, and nothing is written.
* `C97_shadowed` (Save.lean): **C97 fails if a directory of `$Path` has a file of the same name.** `Save` writes the file `fn`, `Get` reads `dir/fn`.

### C98 A crash during Save loses nothing  — partial
List the contents of the file at every moment of Save (saveMoments in Model/Save) and run Get on them.
*Result:* Refuted: the file is truncated first and written in pieces, so there are crash points after which Get silently defines nothing, and others after which Get crashes the interpreter (C98_not_atomic). C98_ends: only the first and the last moment are as stated.
* `C98_ends` (Save.lean): **C98, before and after.** If the process dies before the file is created, the old file is there; after the last write, the new one.
* `C98_not_atomic` (Save.lean): **C98 fails in between.** Whatever was saved under the name before, there is a moment at which a crash leaves an empty file: `Get` then reports success but defines nothing. There is another one that leaves a header without definitions: `Get` then crashes.

### C99 FreeQ finds every occurrence  — partial
FreeQ is a comparison with the result of one replacement by a dummy symbol (Model/FreeQ on top of Model/Replace). Use the theorems on ReplaceAll (C23) and on matching (C20): the marked expression differs from the original exactly if the matcher says yes somewhere.
*Result:* C99_symbol (symbols other than the dummy symbol the implementation uses) and C99_pattern_partial (covered patterns of C20 whose head is not Flat), for values, up to coincidences of fingerprints; evaluation is a function that brings up no new symbols (patterns: does not lose the dummy). Refuted for patterns with a Flat head below the same head (C99_flat_missed: FreeQ[c + x*(a + b), a + b] is True) and for the dummy symbol (C99_dummy).
* `C99_symbol` (FreeQ.lean): **C99, symbols.** `FreeQ[e, x]` says `True` exactly if the symbol `x` occurs nowhere in `e` (heads included). `e` is a value, and evaluation does not bring up symbols that are not in its input.
* `C99_pattern_partial` (FreeQ.lean): **C99, patterns.** `FreeQ[e, pattern]` says `True` exactly if no subexpression of `e` (heads included, `e` itself included) is an instance of the pattern. (Covered patterns, see C20, whose head is not `Flat`; `e` is a value without machine reals, and …
* `C99_flat_missed` (FreeQ.lean): **C99 fails for patterns with a Flat head.** `FreeQ[c + x*(a + b), a + b]` says `True` although `a + b` occurs.
* `C99_dummy` (FreeQ.lean): **C99 fails for the dummy symbol.** Whatever `e` is, `FreeQ[e, Internal`DummyReplace]` says `True` if it says anything.

### C100 FactorInteger and EulerPhi  — proved
Model the programs with fuel for their loops (Model/NumRules); the loop is that of C43; Tally, Sort, DeleteCases as list functions. Unique factorisation and Mathlib's product formula for the totient.
*Result:* The programs of the library are read as programs on numbers (exact arithmetic, C13, C14); evaluation of the programs by the interpreter is not part of these theorems. FactorInteger[0] and [1] are the exceptions {{0,1}}, {{1,1}} (C100_exceptions).
* `C100_factors` (NumRules.lean): **C100, `FactorInteger`.** For every nonzero integer or rational other than 1 the program ends with a factorisation: a sign if the number is negative, then primes in increasing order with nonzero exponents, with the number as product.
* `C100_exceptions` (NumRules.lean): **C100.** The two exceptions: `{{0, 1}}` and `{{1, 1}}`.
* `C100_eulerPhi` (NumRules.lean): **C100, `EulerPhi`.** `EulerPhi[n]` ends with the number of integers in `1..|n|` coprime to `n`, for every integer.

### C101 GCD, LCM, Mod and parts of rational numbers  — partial
The rules of GCD as a relation (any choice of arguments); invariance of the greatest common divisor under each rule, Bezout for the integers.
*Result:* Proved except for LCM of negative or zero arguments, where the code is wrong (C101_lcm_negative: the result is negative; C101_lcm_zero: LCM[0, 0] divides by zero). Programs on numbers as in C100.
* `C101_gcd` (NumRules.lean): **C101, `GCD`.** Whatever arguments the rules pick, the result of `GCD` on integers and rationals is the greatest common divisor.
* `C101_gcd_ends` (NumRules.lean): **C101.** `GCD` ends on every list of integers and rationals: there is always a rule to go on with, each shortens the list.
* `C101_lcm_partial` (NumRules.lean): **C101, `LCM`.** On positive integers and rationals `LCM` is the least common multiple.
* `C101_lcm_negative` (NumRules.lean): **C101, `LCM` is wrong for a negative argument**: the result is negative, `LCM[-4, 6]` is `-12`.
* `C101_lcm_zero` (NumRules.lean): **C101, `LCM[0, 0]` is not a number**: the program divides by zero.
* `C101_mod` (NumRules.lean): **C101, `Mod`.** For an integer or rational `q` and a nonzero integer `c`, `Mod[q, c]` is the number in `[0, |c|)` that differs from `q` by a multiple of `c`.
* `C101_parts` (NumRules.lean): **C101, `IntegerPart` and `FractionalPart`.** They add up to the number, the integer part is an integer, the fractional part is smaller than 1 and has the sign of the number.
* `C101_sign` (NumRules.lean): **C101, `Sign`.**

### C102 Fibonacci, Multinomial and Tuples  — partial
Direct models of the three programs; induction.
*Result:* Proved, except that Fibonacci of a negative number does not end (C102_fibonacci_negative). Programs on numbers as in C100; the destroyed argument of Factorial (C42) is not visible in Multinomial.
* `C102_fibonacci_partial` (NumRules.lean): **C102, `Fibonacci`.** `Fibonacci[n]` is the `n`-th Fibonacci number for `n ≥ 0`.
* `C102_fibonacci_negative` (NumRules.lean): **C102, `Fibonacci` of a negative number never ends.**
* `C102_multinomial` (NumRules.lean): **C102, `Multinomial`.** The value is the multinomial coefficient: the natural number `m` with `m · k1! ⋯ kr! = (k1 + ⋯ + kr)!`.
* `C102_tuples` (NumRules.lean): **C102, `Tuples`.** `Tuples[list, n]` contains exactly the lists of `n` elements of `list`; each once if the elements are different; there are `k^n` of them.

### C103 Polynomial equations of degree 2, 3 and 4  — partial
The rules as pattern and right side (Model/SolveRules); the result of a match by C90's theory of matching; the values of the formulas by the semantics of C89; Vieta's and Cardano's identities by ring.
*Result:* Proved where the formulas have a value (C103_cubic_condition, C103_cubic_exact and C103_quartic_condition say when that is); refuted in general (C103_cubic_wrong, C103_quartic_wrong, C103_wrong_cube, C103_wrong_fourth, C103_wrong_biquadratic). The theorems are about the two rules applied one after the other (reading off the coefficients; the formula), for every match the matcher finds; not modelled: Expand before them and Simplify, Sort after them, PolynomialQ and Exponent.
* `C103_quadratic_partial` (Solve.lean): For every expression that is `a x^2 + b x + c` with `a` not 0, the rules of `Solve` give its two zeros, with their multiplicity. (The rule that reads off the coefficients and the rule with the formula.)
* `C103_cubic_partial` (Solve.lean): For every expression that is `d x^3 + c x^2 + b x + a` with `d` not 0, the rules of `Solve` give its three zeros, with their multiplicity, if the number below the cube root is not 0.
* `C103_quartic_partial` (Solve.lean): For every expression that is `e x^4 + d x^3 + c x^2 + b x + a` with `e` not 0, the rules of `Solve` give its four zeros, with their multiplicity, if the numbers below the cube root and the first square root are not 0.
* `C103_quartic_short_partial` (Solve.lean): For every expression that is `e x^4 + d x^3` with `e` not 0, the rule of `Solve` for it gives its four zeros.
* `C103_cubic_wrong` (Solve.lean): Refutation of the unrestricted claim. If the number below the cube root is 0, none of the three solutions of the equation has a value: all contain a division by 0.
* `C103_quartic_wrong` (Solve.lean): Refutation of the unrestricted claim. If the number below the cube root, or that below the first square root, is 0, none of the four solutions of the equation has a value.
* `C103_cubic_condition` (Solve.lean): The hypothesis on cubic polynomials holds whenever `c^2` is not `3 b d`, that is, unless the polynomial is `d (z - s)^3 + t`.
* `C103_cubic_exact` (Solve.lean): For real coefficients the hypothesis fails exactly for the polynomials `d (z - s)^3 + t` with `t d >= 0`.
* `C103_quartic_condition` (Solve.lean): The hypotheses on polynomials of degree 4 hold whenever `c^2 - 3 b d + 12 a e` and `d^3 - 4 c d e + 8 b e^2` are not 0.
* `C103_wrong_cube` (Solve.lean): Refutation of the unrestricted claim. `Solve[x^3 - 3 x^2 + 3 x + 7 == 0, x]` (the number -1 is a solution) gives three expressions without value.
* `C103_wrong_biquadratic` (Solve.lean): Refutation of the unrestricted claim. None of the rules of `Solve` for degree 4 applies to `1 + x^2 + x^4`.
* `C103_wrong_fourth` (Solve.lean): Refutation of the unrestricted claim. `Solve[x^4 - 4 x^3 + 6 x^2 - 4 x + 1 == 0, x]` (the number 1 is a solution) gives four expressions without value.

### C104 Inverse  — partial
The three rules as pattern and right side; matching of nested lists; Mathlib's matrix inverse as specification.
*Result:* Proved for the rules, for every match the matcher finds (the expression contains no machine reals and the match does not compare different expressions with the same fingerprint). Matrices with more than three rows are left unevaluated by the code (C104_inverse_large).
* `C104_inverse_partial` (Inverse.lean): If one of the rules of `Inverse` applies to a matrix, of any size, with the values `m` and gives `r`, then `r` is a matrix of the same size; if `m` is invertible, the values of `r` are those of the inverse matrix, and if not, no entry of `r` has a value.
* `C104_inverse_large` (Inverse.lean): None of the rules applies to a matrix with more than three rows.

### C105 Two linear equations in two variables  — partial
As C103, with two variables.
*Result:* Proved for the two rules, for every match the matcher finds; the general path solveMultOrdered is not modelled. If the determinant is 0 the result has no value although the system may have solutions.
* `C105_two_equations_partial` (Linear.lean): The rule of `Solve` for two linear equations `a x + b y == c`, `d x + e y == f` gives one solution; if the determinant is not 0, its values are the only numbers that satisfy both equations, and if it is 0, they have no value.
* `C105_one_variable_partial` (Linear.lean): The same for `a x + b y == c`, `d x == f`.

### C106 ReplaceList and MatchQ  — partial
The two functions over the matcher of C20 (Model/Rest); soundness and completeness from C20.
*Result:* Proved for the patterns of C20 (EPat), expressions without machine reals. Refuted beyond: a condition on the right side is not tested (C106_condition_ignored), delayed rules and lists of rules are not accepted (C106_delayed_refused), a Rule with one argument crashes the interpreter (C106_short_rule_crashes).
* `C106_matchq` (Rest.lean): `MatchQ` answers `True` exactly if the expression is an instance of the pattern, and otherwise `False`.
* `C106_sound_partial` (Rest.lean): Every entry of `ReplaceList[e, l -> r]` is the right side with the names replaced by the values of one way to match.
* `C106_complete` (Rest.lean): `ReplaceList` misses no way to match: for all bindings `ρ` under which the expression is an instance of the pattern there is an entry, made with values that are those of `ρ` (up to a coincidence of fingerprints). In particular the result is empty only if …
* `C106_condition_ignored` (Rest.lean): a disagreement: a condition on the right side is not tested; the entry is left with the failed condition in it.
* `C106_delayed_refused` (Rest.lean): a disagreement: a delayed rule (or a list of rules) is not accepted.
* `C106_short_rule_crashes` (Rest.lean): a crash: `ReplaceList[e, Rule[l]]`.

### C107 DownValues lists the rules, and assigning the list back changes nothing  — partial
Listing over the table of C29..C32; a relation between rule lists that differ in the stored number only, preserved by every assignment (induction over the sequence).
*Result:* Proved for symbols without a value of their own (own value lost: C107_own_value_lost). The stored number by which rules are ordered is not shown and set to 0 by the assignment; C107_later says that this has no later effect, provided that the conditions in right sides that mask to the same expression agree about whether there is a condition (MasksAgree). Rules whose left side is not below HoldPattern are hidden or crash the listing (C107_unheld_hidden, C107_unheld_crashes).
* `C107_lists_partial` (Rest.lean): `DownValues[f]` lists exactly the rules for calls of `f`, in the order in which they are tried.
* `C107_lists_unknown` (Rest.lean): A symbol nothing is known of has no rules.
* `C107_roundtrip` (Rest.lean): The listing can be assigned back: `DownValues[f] = DownValues[f]` changes nothing, if the symbol has no value of its own.
* `C107_own_value_lost` (Rest.lean): a disagreement: a value of the symbol itself is lost when the listing is assigned back.
* `C107_unheld_hidden` (Rest.lean): a disagreement: a rule assigned through `DownValues[f] = {f[1] :> r}` works but is not listed.
* `C107_unheld_crashes` (Rest.lean): a crash: after `DownValues[f] = {f[] :> r}` the listing indexes a part that is not there.
* `C107_later` (Rest.lean): After `DownValues[f] = DownValues[f]` also all later assignments have the effect they would have had, whatever is assigned (but for assignments to `DownValues[...]` themselves): the same rules in the same order for every symbol. (`P` are the right sides …
* `C107_reachable` (Rest.lean): These conditions hold after every sequence of assignments (not to `DownValues[...]`) that starts where they hold, for instance with no definitions.

### C108 Prime  — partial
The function with the library as parameter; the position of a prime in an increasing list of all primes below a bound (Mathlib Nat.nth, Nat.count).
*Result:* The library sieve is a parameter that lists the primes below its argument; that n (Log[n] + Log[Log[n]]), computed with machine numbers, bounds the nth prime for n >= 6 is a hypothesis (Rosser). Refuted for integers of more than 64 bits (C108_wrapped_wrong).
* `C108_prime_partial` (Rest.lean): `Prime[n]` is the `n`th prime number, for positive `n` up to the limit in the code. The library lists the primes below its argument (it may list more), and the bound computed with machine numbers is large enough; for `n < 6` it is not used.
* `C108_not_positive` (Rest.lean): Nothing is answered for integers that are not positive.
* `C108_wrapped` (Rest.lean): a disagreement: the argument is cut to 64 bits, so that `Prime[2^64 + 3]` is `Prime[3]`.
* `C108_wrapped_wrong` (Rest.lean): this is wrong for all `n` in range: the prime number with the number `n + 2^64` is another one.

### C109 Random numbers and pauses  — partial
A state machine over an arbitrary generator; induction over the calls.
*Result:* The generator is a parameter. Seeds that differ by 2^64 give the same numbers (C109_seed_cut); pauses are right if the nanoseconds fit into 64 bits, and otherwise cut (C109_pause_skipped).
* `C109_seed_decides` (Rest.lean): After `SeedRandom[n]` the numbers depend on `n` and on the calls that follow only, not on anything before.
* `C109_one_each` (Rest.lean): Every `RandomReal[]` gives one number, one the generator has produced.
* `C109_stream` (Rest.lean): The numbers of consecutive calls are the consecutive numbers of the generator: the `k`th one is what it gives after `k` steps.
* `C109_seed_cut` (Rest.lean): a disagreement: seeds that differ by `2^64` give the same numbers.
* `C109_pause_partial` (Rest.lean): `Pause[n]` waits `n` seconds, if the number of nanoseconds fits into 64 bits.
* `C109_pause_skipped` (Rest.lean): a disagreement: `Pause[9223372037]` does not wait at all.

### C110 Trace observes without changing  — partial
The evaluator with the trace field (Model/Trace), functions as programs; a simulation between runs with and without trace, and between the run without trace and the evaluator of the other claims (Model/Eval); an invariant of the trace.
*Result:* Transparency is proved without restriction on the program (C110_trace_irrelevant, C110_evaluator, C110_trace_runs). Growth and content are proved for programs that do not throw and do not call Trace; refuted otherwise (C110_throw_forgets, C110_nested_off, C110_symbol_untraced). Simplification: builtin functions do not look at the trace; the trace is a value.
* `C110_trace_irrelevant` (Trace.lean): Tracing does not change an evaluation: whatever the trace, and whatever is evaluated (also `Trace` itself), the state afterwards and the value are the same, and so is whether the evaluation ends or crashes.
* `C110_evaluator` (Trace.lean): Without the function `Trace`, evaluation in trace mode is the evaluation the other claims are about.
* `C110_stays_off` (Trace.lean): Outside a trace no trace appears.
* `C110_trace_runs` (Trace.lean): `Trace[e]` evaluates `e`: it leaves the state that `e` leaves, ends or crashes as `e` does, and tracing is off afterwards.
* `C110_grows_partial` (Trace.lean): If nothing is thrown, a trace only grows: what has been recorded stays, and what is added are steps `HoldForm[...]` and, for arguments, lists of at least two entries.
* `C110_call_noted_partial` (Trace.lean): The trace of a call shows the call with its evaluated arguments (up to coincidences of fingerprints).
* `C110_chain_partial` (Trace.lean): The trace of a chain of rewrites is this chain: `Trace[e]` gives every expression on the way, in order, and the value.
* `C110_throw_forgets` (Trace.lean): a disagreement: a throw that is caught makes the trace forget everything recorded before it, here the steps of `f[1]`.
* `C110_nested_off` (Trace.lean): a disagreement: `Trace` inside `Trace` turns tracing off; nothing is left of the steps before it and nothing after it is recorded.
* `C110_symbol_untraced` (Trace.lean): a disagreement: `Trace[a]` is empty although `a` evaluates to 3.
* `C110_flow` (Trace.lean): The functions of flow control are such programs: this is what makes `C110_evaluator` speak about the evaluator of the other claims.

### C111 The session history is what was typed and what came out  — partial
The session loop over the definitions of C30ff (Model/Session); an invariant on the rules of In, Out and $Line.
*Result:* Conditions: evaluation leaves In, Out, $Line and $PrePrint alone, no interrupts, results evaluate to themselves, and the fingerprints of In[i] and In[j] differ. Refuted outside of them: C111_cleared_line_crashes, C111_interrupted_throw_overwrites.
* `C111_history_partial` (Session.lean): After a session of `k` inputs the rules of `In` are `In[i] := input i`, those of `Out` are `Out[i] = output i`, for `i` from 1 to `k`, and `$Line` is `k + 1`.
* `C111_preprint` (Session.lean): With a value `f` of `$PrePrint`, what is printed is the value of `f[result]`, `$PrePrint` being the one after the result is evaluated again, and the effects of its evaluation (apart from those on `$Line`) are kept.
* `C111_cleared_line_crashes` (Session.lean): `Clear[$Line]` crashes the session, whatever the state and the evaluator: once `$Line` has no value there is no next prompt.
* `C111_interrupted_throw_overwrites` (Session.lean): An interrupt together with an uncaught throw: the flag of the interrupt is not cleared, `$Line` stays, and the next input overwrites the entries `In[1]` and `Out[1]` of the history.

### C112 Integration rules give antiderivatives  — partial
The rules as data (Model/IntRules), the matcher of C20, the meaning of expressions with integrals as a relation between expressions and functions (Spec/Integral); for each rule a calculation with complex derivatives (Proofs/IntCalc), and a general lemma from the match to the values (Proofs/IntRule).
*Result:* 28 rules of two of the files of rules. Assumed: the tests of the rules (FreeQ, EqQ, IntegerQ, ...) are True only if they hold, RemoveContent only removes constant factors, ExpandIntegrand keeps the value, no clash of fingerprints in the match. A rule applied to an integrand that has no value is not covered.
* `C112_rule_partial` (Integral.lean): If one of the rules is applied to `Int[u, x]`, then every function that the result stands for has the derivative `u`, at most points: wherever `u` has a value, except possibly on a set that is not dense anywhere (branch cuts, zeros of denominators).
* `C112_step_partial` (Integral.lean): Steps of the evaluation keep what the expression stands for: a function that the new expression stands for is one that the old expression stands for.
* `C112_integral_partial` (Integral.lean): If the evaluation of `Int[u, x]` ends with an expression `res` without integrals, then `u` is the derivative of `res`.

### C113 A definite integral is the integral  — partial
The rule as a function (Model/Definite) over the model of ReplaceAll; the value after replacement of a symbol is the value with the symbol interpreted by the new value; fundamental theorem of calculus from Mathlib.
*Result:* The antiderivative is a parameter (see C112); the final Simplify is left out. Refuted without continuity: C113_wrong_pole.
* `C113_definite_partial` (Definite.lean): If `anti` is an antiderivative of `f` on the interval, without a jump, then the result is the integral.
* `C113_wrong_pole` (Definite.lean): Without the condition this is false: the derivative of `-1/x` is `1/x^2` wherever it is defined, which is positive, but `Integrate[1/x^2, {x, -1, 1}]` gives `-1/1 - (-1/(-1))`, that is `-2`.

### C114 Expand keeps the value  — partial
The two rules as data, ReplaceAll and the matcher of C20, the programs on the right sides as functions (Model/Expand). General lemma: ReplaceAll with a rule that keeps the value at every piece keeps the value (Proofs/ReplaceMeaning); the multinomial theorem for the list of exponents (Proofs/Expand); the rules one by one, with the value of a match from C90 (Proofs/ExpandRules).
*Result:* Evaluation after a round is a parameter that keeps values; the arguments of the calls on the right sides are computed by the model (finish). Assumed: no machine reals, no clash of fingerprints in the match, the argument is evaluated. Refuted for rounds in which both rules act: C114_wrong.
* `C114_exponents` (Expand.lean): **C114, the exponents.** For a power `n ≥ 1` of a sum with `m ≥ 1` addends the list of exponents contains every list of `m` numbers with the sum `n` exactly once.
* `C114_power` (Expand.lean): **C114, the expansion of a power.** If the addends, none of which is the number 0, have values, the expansion of the `n`-th power of the sum has the value `(v1 + v2 + ...)^n`.
* `C114_zero` (Expand.lean): With an addend 0 the expansion would be `Indeterminate`.
* `C114_rule_partial` (Expand.lean): **C114, one rule.** Each of the two rules, applied everywhere in the expression (directly, or to some of the factors of a product), keeps the value.
* `C114_round_partial` (Expand.lean): **C114, one round.** A round in which only one of the rules changes something keeps the value. (For other rounds see `C114_wrong`.)
* `C114_expand_partial` (Expand.lean): **C114, `Expand`.** If the evaluator keeps values, and in every expression that `Expand` goes through only one of the rules changes something, the result has the value of the argument.
* `C114_wrong` (Expand.lean): **C114, a wrong result.** `Expand` is wrong for `(c x + c (y - x))^2`: the second rule acts on the sum inside the call of `genExpand` that the first rule has left; that sum then evaluates to the product `c y`, whose factors are taken for the addends. The …

### C115 With puts the values in place; Switch takes the first case that matches  — partial
applyWithFn as the list of rules given to the model of ReplaceAll (Model/With); each rule is a substitution (C23), the composition is the simultaneous one if no value mentions a later variable; Switch by induction over the cases with soundness and completeness of the matcher (C20).
*Result:* Proved for variables that are symbols, expressions without two different subexpressions of equal fingerprint (C09), and for Switch the patterns of C20 and expressions without machine reals. The statement as given is refuted: C115_wrong (sequential, capture).
* `C115_with_partial` (With.lean): `With[{x1 = v1, x2 := v2, ...}, body]` is the body with the values in place of the variables, one declaration after the other. The values are put in as they stand.
* `C115_simultaneous_partial` (With.lean): in that case `With` puts all values in at once.
* `C115_wrong` (With.lean): as stated is false: a later declaration also acts on the values of the earlier ones, `With[{x = y, y = 2}, x]` is 2 and not `y`; and the variables of an inner function are replaced too, `With[{x = 1}, Function[x, x]]` is `Function[1, 1]`.
* `C115_refused` (With.lean): a declaration that is neither `x = v` nor `x := v` makes `With` return unchanged, whatever the other ones are.
* `C115_switch_partial` (With.lean): `Switch[e, p1, v1, p2, v2, ...]` is the value beside the first pattern that `e` matches, and it is unchanged if there is none.

### C116 Simplifying a logical expression keeps its truth value  — partial
The 18 rules as expressions (Model/BoolRules) given to the model of ReplaceAll and ReplaceRepeated. Interpretation with truth values, other objects and no value (Spec/Truth). From a match of And or Or (Flat, not Orderless) one gets consecutive blocks of arguments (Proofs/Blocks), one per pattern; the value of the call is the fold over the values of the blocks, and each rule is a law of that algebra (Proofs/BoolSem), checked for And/Or and dually. replaceAll_keeps lifts it to all positions and to flatReplace.
*Result:* Each rule is proved to keep the value everywhere in an expression without machine reals and Sequence in which no two different expressions compared have the same fingerprint (C09); a round and the whole are proved if whenever a rule changes something these conditions hold (in particular no Sequence[] was left by an earlier rule of the same round) and the evaluator keeps values. Without that the claim is refuted: C116_wrong. The left sides of the rules are taken as written (RuleDelayed evaluates them, which leaves them as they are). The other steps of Simplify are not modelled.
* `C116_rule_partial` (BoolRules.lean): **C116, one rule.** Each of the 18 rules, applied everywhere in an expression (directly, or to some of the arguments of a longer `And` or `Or`), keeps the value.
* `C116_round_partial` (BoolRules.lean): **C116, one round.** The 18 rules, applied one after the other, keep the value.
* `C116_simplify_partial` (BoolRules.lean): **C116, `booleanSimplify`.** If the evaluator keeps values, the result has the value of the argument.
* `C116_literal` (BoolRules.lean): **C116, a missing blank.** The second rule is meant for any three negations, but because its third variable has no blank it does not apply to `!p || !q || !r`, only to `!p || !q || !z` with its own symbol `z`.
* `C116_wrong` (BoolRules.lean): **C116, a wrong result.** Several rules in one round can give a wrong result: a `___` that took nothing leaves a `Sequence[]` in the expression, which is removed only by the evaluation after the round, and the later rules take it for an argument. In `(q || …

### C117 ReplacePart replaces exactly the addressed parts  — partial
replaceParts with the one mutable list of positions: conditions see its present contents, returned values its final (empty) contents (Model/ReplacePart). Specification by parts at positions (Spec/ReplacePart); mutual induction over the expression; fixed positions match only themselves by soundness and completeness of the matcher (C20).
*Result:* C117_parts: for arbitrary rules, relative to the value the rules give at each position. C117_places_partial: fixed positions, values that are not conditions, no position in a rule with the fingerprint of a different position in the expression (C09). C117_position_lost refutes the claim for variables that stand for the whole position (the list object is reused). The three-argument form (replacement.m:201) and conditions inside With or Module are not modelled.
* `C117_parts` (ReplacePart.lean): **C117, any rules.** Whatever the rules are: if they give the value `new π` (or none) for each position `π` of the expression, the result is the expression with exactly these parts replaced.
* `C117_places_partial` (ReplacePart.lean): **C117, fixed positions.** `ReplacePart[e, {p1 -> v1, ...}]`, where each `pk` is a number or a list of numbers, is `e` with the parts at these positions replaced by the values and nothing else changed. No position in a rule may have the same fingerprint as …
* `C117_other` (ReplacePart.lean): A call that is not of this form, or with something else than rules in the list, is unchanged.
* `C117_position_lost` (ReplacePart.lean): **C117, a wrong result.** A variable that stands for the whole position gives an empty list: `ReplacePart[f[x, y], p_List -> p]` is `f[{}, {}]` and not `f[{1}, {2}]`.

### C118 Take, First, Last, Rest, Fold, Nest and Tally do what their names say  — partial
The rule right-hand sides composed from the modelled built-ins (Model/ListProg); Part by its specification (C34), Tally through the literal matching theorem C20_pattern_free, C38_count and C65_slots.
*Result:* The programs as compositions of Part, Length, Greater, FoldList, NestList, DeleteDuplicates, pure functions and Count (C12, C34, C36, C38, C39, C65). C118_fold_partial and C118_nest_partial assume an evaluator that treats the list elementwise; C118_tally_partial assumes elements without patterns, slots, reals and Flat or Orderless heads, and no fingerprint collisions (C09). Refuted: C118_take_fails (0, negative and too large counts), C118_take_steps, C118_last_argument, C118_fold_orderless, C118_tally_pattern, C118_tally_slot. That the rules are the ones applied (their order, their patterns) is read off the source.
* `C118_take_partial` (ListProg.lean): **C118, `Take[f[xs], m]`** with `0 < m ≤ Length[xs]` is `f` of the first `m` elements.
* `C118_take_range` (ListProg.lean): **C118, `Take[f[xs], {a, b}]`** with `1 ≤ a ≤ n + 1` and `b ≤ n` is `f` of the elements `a` to `b`.
* `C118_take_fails` (ListProg.lean): **C118, `Take[f[xs], m]` with any other `m`** (that fits in 64 bits): for `m` greater than the length, for 0 and for negative `m` a call of `Part` is left. In particular the last elements can not be taken.
* `C118_take_steps` (ListProg.lean): `Take[f[xs], {a, b, c}]` is never done: `Part` knows no steps.
* `C118_ends` (ListProg.lean): **C118, `First`, `Last` and `Rest`** of `h[x1, ..., xn]`, `n ≥ 1`: the first element, the last one, and `h[x2, ..., xn]`.
* `C118_ends_empty` (ListProg.lean): expressions without elements are left alone.
* `C118_fold_partial` (ListProg.lean): **C118, `Fold[f, x, h[a1, ..., an]]`** is the value of `f[... f[f[x, a1], a2] ..., an]`, if the evaluator treats calls of `h` elementwise.
* `C118_fold_two` (ListProg.lean): **C118, `Fold[f, h[x, a1, ..., an]]`** is `Fold[f, x, h[a1, ..., an]]`.
* `C118_nest_partial` (ListProg.lean): **C118, `Nest[f, x, n]`** for `0 ≤ n` is the value of `f[... f[x] ...]`, `n` times.
* `C118_last_argument` (ListProg.lean): **C118, what `Nest` and `Fold` do with other arguments.** `Nest[f, x, n]` with a negative `n`, or with an `n` that is no integer, returns `n`; `Fold[f, x, e]` with an atom `e` returns `e`. (`FoldList` and `NestList` stay as they are, and `Last` takes their …
* `C118_fold_orderless` (ListProg.lean): **C118, `Fold` over an `Orderless` expression is wrong**: the list of partial results is made with the head of the argument, and the evaluator sorts it. `Fold[f, h[1, 2, 3], a + c]` is `h[1, 2, 3]`, not `f[f[h[1, 2, 3], a], c]`.
* `C118_tally_partial` (ListProg.lean): **C118, `Tally`** of a list of elements without patterns, slots and reals: each different element once, in the order of their first occurrences, with the number of its occurrences.
* `C118_tally_pattern` (ListProg.lean): **C118, `Tally` counts matches**: `Tally[{_, 1, 2}]` says that `_` occurs three times.
* `C118_tally_slot` (ListProg.lean): **C118, `Tally` captures slots**: `Tally[{#1, 1}]` says that `1` occurs twice, since the list is part of a pure function.

### C119 x++, x--, ++x, --x, x += e, x -= e, AppendTo and PrependTo update the variable and nothing else  — partial
The rules of arithmetic.m and list.m as stored definitions in the table (Model/AssignProg), run by the model evaluator: a general lemma that f[x_, y_, ...] matches f[a, b, ...] in exactly one way (Proofs/CallMatch), one for a call that a rule turns into a built-in call, and the frame condition Becomes.
*Result:* Run in the modelled evaluator: the stored rule is found by the matcher, its right side is evaluated with Set, CompoundExpression, Plus and Times. Not covered: other values than integers (for reals C119_increment_real), variables without value, indexed variables f[1]++; the rules of Plus and Times are left out of the table (they are consulted only if the builtin function leaves its call as it is). Refuted for machine reals: C119_increment_loses_value.
* `C119_increment_partial` (AssignProg.lean): `x++` for a variable with an integer value: the value of the call is the old value, the new value of `x` is one more, and nothing else in the session changes.
* `C119_decrement_partial` (AssignProg.lean): `x--`.
* `C119_preincrement_partial` (AssignProg.lean): `++x`: the value of the call is the new value.
* `C119_predecrement_partial` (AssignProg.lean): `--x`.
* `C119_add_to_partial` (AssignProg.lean): `x += e` and `x -= e`: first `e` is evaluated, with all its effects; then `m`, its value, is added to (subtracted from) the value that `x` has then.
* `C119_increment_real` (AssignProg.lean): `x++` for a machine real `q`: the new value is the rounded `q + 1`; the value of the call is not the old value but the new one minus 1, rounded.
* `C119_increment_loses_value` (AssignProg.lean): So `x++` with the value 2^-60 (a machine real) of `x` gives 0.
* `C119_append_to_partial` (AssignProg.lean): `AppendTo[l, e]` and `PrependTo[l, e]`: first `e` is evaluated, then its value becomes the last (first) element of the list that `l` has then, and the value of the call is the new list. The elements are values that do not depend on `l`.

### C120 A For loop runs its body for every value of the counter  — partial
The rule of flowcontrol.m run by the model evaluator; the rounds of While from an inductive description of the loop (Spec/AssignProg ForRuns); induction over the number of rounds with an arbitrary invariant; comparisons by C12.
*Result:* Hoare-style rule C120_counting_partial with two applications. Not covered: bodies that change the counter, return or throw; steps other than i++. Refuted: C120_bound_passed (a bound of 2^53 gets a round more), C120_break_ignored.
* `C120_for_partial` (ForLoop.lean): `For[beg, test, incr, body]`: `beg` is evaluated once; then, as long as the test gives `True`, the body and after it the increment. The value is `Null`.
* `C120_counting_partial` (ForLoop.lean): A counting loop `For[i = a, i <= b, i++, body]` with bounds of at most 2^53: the body is evaluated for `i = a, a + 1, ..., b`, in this order, and the counter is left at `b + 1` (at `a` if there is no round). `P k` is any property of the session that holds …
* `C120_sum_partial` (ForLoop.lean): `For[i = 1, i <= n, i++, s = s + i]` with `s = 0` before leaves `s = 1 + 2 + ... + n = n (n + 1) / 2`.
* `C120_factorial_partial` (ForLoop.lean): `For[i = 1, i <= n, i++, s = s * i]` with `s = 1` before leaves `s = n!`.
* `C120_bound_passed` (ForLoop.lean): The bound 2^53 is not respected: `For[i = 2^53, i <= 2^53, i++, Null]` does a round with `i = 2^53 + 1` too and leaves `i = 2^53 + 2`.
* `C120_break_ignored` (ForLoop.lean): `Break[]` does not leave a `For` loop: `For[i = a, i <= b, i++, Break[]]` counts up to the end. (`System`Break` is a symbol without definition.)

### C121 A user-defined function computes what its definitions say  — partial
A lemma that f[p, q, ...] matches f[a, b, ...] in at most one way, and when (Proofs/CallPats); the rules of the table tried in order; one pass of the evaluator per call, then its body; induction over the argument. The order of two definitions by the modelled Define. Divergence by induction over the fuel of the loop.
*Result:* Run in the modelled evaluator with the modelled matcher. Parameters are x_ or integers (no typed or sequence blanks, conditions or defaults); all definitions have the number of parameters of the call; integers are compared by fingerprint as in the code, so the recursion theorems assume that no integer on the way has the fingerprint of a base case. The order theorem assumes a printed general left side below 110 bytes. Refuted for two parameters: C121_base_case_hidden, C121_hidden_diverges; C121_base_case_hidden_printed gives the condition in terms of the printed names (C121_printed, by the printing model of C84): p[x_, 0] is always hidden.
* `C121_call_partial` (UserFn.lean): The value of a call `f[a, b, ...]` of a function with several definitions: the arguments are evaluated from left to right; the first definition whose integers are among the values in their places is used; the value is that of its right side with the values …
* `C121_no_clause` (UserFn.lean): A call that no definition fits stays, with its arguments evaluated.
* `C121_factorial_partial` (UserFn.lean): `f[0] = 1; f[x_] := x f[x - 1]` computes factorials, for every argument that evaluates to a natural number, however large. (No integer up to it has the fingerprint of 0.)
* `C121_fibonacci_partial` (UserFn.lean): `f[0] = 0; f[1] = 1; f[x_] := f[x - 1] + f[x - 2]` computes the Fibonacci numbers. (No other integer up to the argument has the fingerprint of 0 or 1.)
* `C121_order_partial` (UserFnDefs.lean): Whatever the order in which `f[c] = v` and `f[x_] := body` are entered, the definition for the integer is tried first (the printed form of the general left side, with its wrapper, having less than 110 bytes). The session stays as shipped.
* `C121_factorial_program_partial` (UserFnDefs.lean): a program of two lines. `f[0] = 1` and `f[x_] := x f[x - 1]`, entered in either order, then `f[n]` is `n!`.
* `C121_base_case_hidden` (UserFnDefs.lean): refuted for two arguments: a base case `p[x_, c] := e` is never used beside `p[x_, y_] := e'`, whatever the order of the definitions, if its printed left side is the shorter one: the longer left side is tried first, and fits every call.
* `C121_hidden_diverges` (UserFnDefs.lean): refuted: with `p[x_, 0] := x` and `p[x_, y_] := p[x + 1, y - 1]` tried in the order in which they are stored by `C121_base_case_hidden`, a call with integers never returns, where the definitions say that `p[a, b]` is `a + b`.
* `C121_printed` (UserFnPrint.lean): the printed form of a stored left side.
* `C121_order_printed_partial` (UserFnPrint.lean): the case of one parameter, with the printed lengths: the definition for an integer is tried first if the names of the function and its parameter have less than 94 bytes together.
* `C121_base_case_hidden_printed` (UserFnPrint.lean): refuted: beside `p[x_, y_] := ...` a base case `p[x_, c] := ...` is never used if the integer has no more characters than the name `y`; in particular `p[x_, 0]` never is.

### C122 Fibonacci remembers its values and stays right  — partial
An invariant of the table (Memo: a list of remembered numbers with right values, then the general definition), kept by the definition made in each call; strong induction over n with the state threaded through both recursive calls. For negative integers, induction over the fuel of the evaluator.
*Result:* Run in the modelled evaluator with the shipped rules. Integers and left sides are compared by fingerprint as in the code, so it is assumed that the numbers up to a bound have different ones (NoMix, checked for 10 in the example); the argument must not change definitions while it is evaluated; the printed general left side is assumed to be shorter than 110 bytes, which the printing model gives (26). Refuted for negative integers: C122_negative_never_returns.
* `C122_fibonacci_partial` (FibProg.lean): `Fibonacci[e]`, where `e` is evaluated to a natural number `n`, gives the `n`-th Fibonacci number, whatever values have been remembered before. Afterwards the value of `n` is remembered too, so are all those remembered before, all the values remembered are …
* `C122_remembered` (FibProg.lean): a remembered value is given without any further change.
* `C122_negative_never_returns` (FibProg.lean): refuted for negative numbers: `Fibonacci[a]` for a negative integer does not return within `n` nested evaluations, whatever `n` is, unless one of the integers from `a - n` to `a` has the fingerprint of a remembered number: the general definition asks for …
* `C122_shipped` (FibProg.lean): the definitions of the resource file, made in a session that has none for `Fibonacci`, give the entry `fibEntry`: the values of 0 and 1 are remembered and nothing else is.

### C123 Programs with variables, If and While do what they mean  — partial
A big-step semantics (Run), divergence as a greatest fixed point (Forever), faults, and the translation of programs to expressions, all independent of the model. Forward: induction on the derivation with the invariant that the session holds the store. Divergence: induction on the fuel of the evaluator, with an inner induction on the rounds of a loop. Converse from determinism. Euclid by induction on a measure.
*Result:* Integers only; the tests are < and <= of numbers up to 2^53 (beyond that the code compares rounded numbers, see C120_bound_passed); subtraction is written a + (-1)*b as the parser writes it; the rewrite rules of Plus and Times are not in the table (arithmetic on numbers does not reach them); the loop of the evaluator is taken to compare expressions exactly instead of by fingerprint. Within that, both directions are proved: C123_program_partial, C123_forever, C123_only, C123_exact_partial, with C123_trichotomy showing that the meanings are exhaustive.
* `C123_program_partial` (ImpProg.lean): a program made of assignments of integers, arithmetic, sequences, `If` and `While` does what it means: if by the ordinary meaning of the language it comes to an end in the store `σ'` with the value `v`, then the interpreter comes to an end with this value, …
* `C123_forever` (ImpProg.lean): a program that by the ordinary meaning of the language never comes to an end is evaluated without end.
* `C123_only` (ImpProg.lean): conversely, if the evaluation comes to an end, the program does not run forever, and a result of the program is the result of the evaluation.
* `C123_trichotomy` (ImpProg.lean): The ordinary meaning is complete: a program comes to an end, faults, or runs forever.
* `C123_exact_partial` (ImpProg.lean): for a program that does not fault, the interpreter gives exactly the result that the ordinary meaning gives, and none if there is none.
* `C123_gcd_partial` (ImpProg.lean): Euclid's algorithm leaves the greatest common divisor in `a`, for all natural numbers up to 2^53.
* `C123_endless` (ImpProg.lean): `While[0 < 1, x = x + 1]` never comes back.

### C124 Recursive functions of integers have the values their definitions give  — partial
A definitional interpreter of the functional language (run), with parameters as an environment, independent of the evaluator. Induction on its depth: the loop of the evaluator, started with the expression with the values substituted, comes to the value whether inside a body or not. Divergence by a greatest fixed point and induction on the evaluator's fuel.
*Result:* Integers only; comparisons of numbers up to 2^53; numbers beyond a bound B are not compared with literals on left sides, and those up to B are assumed to have other fingerprints than the literals (checked in the concrete example); rules of Plus and Times not in the table; the loop of the evaluator compares expressions exactly instead of by fingerprint. C124_value_partial and C124_only: values; C124_forever: endless recursion; C124_ackermann_partial, C124_mccarthy_partial, C124_mutual_partial, C124_climbing: programs. How such definitions get into the table is C121.
* `C124_value_partial` (FunProg.lean): An expression with calls of recursive functions of the user is evaluated to the value that the definitions give it, whatever the depth of the recursion, and without any change of the session.
* `C124_only` (FunProg.lean): The evaluation has no other result.
* `C124_forever` (FunProg.lean): An expression that by its definitions never gets a value is never finished.
* `C124_given_back` (FunProg.lean): A call of which the body is literally the same call is given back.
* `C124_ackermann_partial` (FunProg.lean): The usual definition of Ackermann's function computes it.
* `C124_mccarthy_partial` (FunProg.lean): McCarthy's function gives 91 for every integer up to 101 (down to -2^53).
* `C124_mutual_partial` (FunProg.lean): `f[n_] := If[n <= 0, 1, g[n - 1]]; g[n_] := If[n <= 0, 0, f[n - 1]]` tell even from odd numbers.
* `C124_climbing` (FunProg.lean): with `f[n_] := f[n + 1]` the call `f[n]` is never finished.

### C125 Comparing expressions is not confused by what was compared before  — partial
A heap of objects with parts and a stored fingerprint; the methods Hash, AppendEx, SetParts, Swap, ClearHashes, DeepCopy, ShallowCopy as operations on it, histories as sequences of them. Content is defined by following pointers, without the fingerprints. Invariant: what is stored is the fingerprint of the content. Hash is followed by induction on its depth, with an account of which objects it stores into; extremaFunction for Min is run on such a heap. Substitution: the copy is a tree laid out from lo to hi, parts before the whole; induction on its depth, the loop over the parts with the parts done so far.
*Result:* The rule that objects are changed only while nothing that contains them is fingerprinted is an hypothesis about each caller (Careful); it is proved for Sort (C125_sort), for results built by appending (C125_built), and, in the form that the evaluator uses, for the evaluation of arguments (C125_argument); ReplacePD, which changes parts of a fingerprinted copy and clears on the way, is one of the calls (C125_replace); the other callers are not gone through. C125_needed: the rule is needed. C125_min refutes the property: Min breaks the rule. The caches inside atoms are not modelled, and a 64-bit fingerprint may collide (C07).
* `C125_right_partial` (HashCache.lean): **C125, `Hash` is right.** After any sequence of calls made with care, what `Hash` answers for a value is the fingerprint of its content.
* `C125_answers` (HashCache.lean): **C125, `Hash` answers.** For every value with a content.
* `C125_same_partial` (HashCache.lean): **C125, `SameQ`.** Whatever was copied, compared and built before, `IsSameQ` says of two values what it says of their contents.
* `C125_unchanged` (HashCache.lean): **C125, looking changes nothing.** `Hash` leaves the contents of all values as they were.
* `C125_copy` (HashCache.lean): **C125, a copy has the content of the original**, and the original keeps its own.
* `C125_replace` (HashCache.lean): **C125, `ReplacePD`.** The names in the copy are replaced by their values, and everything that was there before is as it was. (That what is stored in the result is right, although the parts of the copy are changed while fingerprints of the whole are …
* `C125_sort` (HashCache.lean): **C125, `Sort`.** A copy is made, its fingerprint is cleared, and then its arguments are moved about (`builtin_sort.go:20-24`): the rule is kept, whatever is moved.
* `C125_needed` (HashCache.lean): **C125, the rule is needed.** If an object with a fingerprint stored is changed, directly or by way of something it contains, so that the fingerprint of its content is now another one, `Hash` does not notice.
* `C125_argument` (HashCache.lean): **C125, evaluating the arguments.** One turn of the loop over the parts: `h1` is the heap before the part `i` of the object `n` is evaluated, `h` the one after, with the value `v`. The evaluation may do anything to the rest of the heap, as long as the …
* `C125_built` (HashMin.lean): **C125, building an expression.** A new object, to which parts that exist already are appended one after the other, as most of the built-in functions make their results: the rule is kept.
* `C125_min` (HashMin.lean): **C125, `Min` confuses itself with a list.** Let the object `n` be `Min[e1, ..., ek]` with such arguments and with the right fingerprints stored in it. Evaluating it gives the same object with the same content, but the fingerprint stored in it is now that …

### C126 Total, Mean, AllTrue, ListQ and Boole do what their names say  — partial
The rule right-hand sides composed from the modelled built-ins (Model/Summary); sums, means and their independence of the order from C14 and C16, AllTrue from the loop of And with an evaluator that has effects.
*Result:* The programs as compositions of Apply, Plus, Times, Power, Length, Map and And (C14, C15, C16, C17, C38). Total and Mean are for exact numbers, with one evaluation pass over the results; C126_total_symbolic is up to fingerprint collisions (C09), as is the converse in C126_listQ_boole. C126_allTrue_partial assumes that the values of the tests evaluate to themselves. C126_total_lists: several lists are read as a level specification. That the rules are the ones applied is read off the source.
* `C126_total_partial` (Summary.lean): `Total` of a list of exact numbers is their sum in normal form, in whatever way the arguments of `Plus` are sorted.
* `C126_total_symbolic` (Summary.lean): `Total` of a list of exact numbers and symbolic terms has the value of the sum of its elements, whatever the symbols stand for; no two terms may collide (C09).
* `C126_mean_partial` (Summary.lean): `Mean` of a nonempty list of exact numbers is their mean, in normal form.
* `C126_order` (Summary.lean): The order of the elements of a list of exact numbers does not matter to `Total` and `Mean`.
* `C126_empty` (Summary.lean): The total of no elements is 0; their mean is `Indeterminate`.
* `C126_total_lists` (Summary.lean): Refuted: the rules accept several lists, whose tail then is read as the level specification of `Apply`: `Total[{{1, 2}, {3}}, {1}]` gives `{3, 3}`, and `Total[{1}, {2}]` its first argument.
* `C126_allTrue_partial` (Summary.lean): `AllTrue[h[e1, ..., en], cond]` evaluates every test once, in order, also after one that is `False`; the answer is `False` if some test gives `False`, otherwise `True` if all give `True`, and otherwise the conjunction of the undecided values (one of them …
* `C126_allTrue_atom` (Summary.lean): Over an atom `AllTrue` is left alone.
* `C126_listQ_boole` (Summary.lean): `ListQ` is true of every list, false of every atom, and, unless the fingerprint of a head collides with that of the symbol `List` (C09), true of nothing else; `Boole` maps `True` and `False` to 1 and 0 and leaves everything else alone.

### C127 Solving by isolation finds exactly the solutions  — partial
applyInverse and isolate as functions on expressions (Model/Isolate), values over the complex numbers as a partial function in which 0 has no nonpositive power (Spec/Isolate). One step turns solutions into solutions in both directions; the lists of roots for the exponents 3 and 5 through primitive roots of unity; induction on the number of steps.
*Result:* The rules as a program on expressions; their right sides are not evaluated and PowerExpand is left out. C127_sound_partial and C127_complete_partial assume that the variable is not under a root and that it occurs once; completeness assumes that the right sides have values. C127_simple: for sums, products, reciprocals and powers 2 to 5 isolation always comes to an end with such right sides. C127_zero shows that this is needed and C127_radical refutes the property for roots. Not modelled: logarithms, exponentials and the trigonometric and hyperbolic functions, the exponent 1/n apart from its refutation, and the check and simplification of the results.
* `C127_sound_partial` (Isolate.lean): Isolating a variable is sound: every right side that has a value satisfies the equation when it is put in for the variable, whatever the other symbols stand for; no right side has the variable in it (up to `countVar`).
* `C127_complete_partial` (Isolate.lean): Isolating a variable is complete: if all the right sides have values, then these are exactly the complex solutions of the equation.
* `C127_simple` (Isolate.lean): If the variable occurs once in the equation, under sums, products, reciprocals and powers with exponents 2 to 5 only, on either side, isolation comes to an end and succeeds; its right sides are solutions as far as they have values, and if all of them have, …
* `C127_zero` (Isolate.lean): Both hypotheses are needed. `1/x = 0` has no solution, but isolation gives `1/0`; `a x = b` is solved by everything if `a` and `b` are 0, but isolation gives only `b/a`, which has no value then.
* `C127_radical` (Isolate.lean): Refuted for a variable under a root: isolation turns `x^(1/2) = -1` into `x = (-1)^2`, which is 1, and 1 is not a solution (`Solve` looks at its results once more afterwards).

### C128 PDF gives the densities of the distributions  — partial
The right sides as expressions (Model/Density), values over the reals as a relation (Spec/Density); the value of the normal density is Mathlib's Gaussian density, whose integral and mean are known.
*Result:* The right sides of the two rules, not evaluated, with their values as real functions; that the evaluator keeps the value of an expression is not proved. C128_functional: an expression has at most one value. C128_negative refutes the property without sigma > 0.
* `C128_normal_partial` (Density.lean): For `sigma > 0`, `PDF[NormalDistribution[mu, sigma], x]` has as its value the density of the normal distribution with mean `mu` and variance `sigma^2`: it is positive, it integrates to 1, and the mean of the distribution is `mu`.
* `C128_logNormal_partial` (Density.lean): For `sigma > 0` and `x > 0`, `PDF[LogNormalDistribution[mu, sigma], x]` is the normal density of `Log[x]` divided by `x`, the density of a variable whose logarithm is normal; for other `x` it is 0.
* `C128_logNormal_integral` (Density.lean): The value of `PDF[LogNormalDistribution[mu, sigma], x]` in `C128_logNormal_partial` integrates to 1 over the real line.
* `C128_negative` (Density.lean): Refuted: nothing keeps `sigma` positive; for `sigma = -1` the "density" of the normal distribution is negative everywhere.
* `C128_functional` (Density.lean): An expression has at most one value.

## 6. Axioms of each theorem

From `#print axioms` on every theorem named in `MANIFEST.json`. All of them are among Lean's three standard axioms; `Classical.choice` enters through Mathlib lemmas and tactics.

* `[propext, Classical.choice, Quot.sound]`: all 516 theorems not listed below.
* `[propext, Quot.sound]`: `C16_zero_base`, `C17_short_circuit`, `C24_splice`, `C26_held_irrelevant`, `C32_rows`, `C32_number`, `C34_huge_index`, `C39_array`, `C42_argument_destroyed`, `C44_gcd_unevaluated`, `C49_value`, `C54_report`, `C57_wrapped`, `C58_base_one_diverges`, `C62_orderless_no_forms_crashes`, `C78_select`, `C80_count`, `C80_choices`, `C85_join`, `C85_take_total`, `C86_simplifyCount`, `C89_runs_partial`, `C89_error`, `C89_only`, `C95_export`, `C97_roundtrip_partial`, `C97_refused`, `C97_builtin_lost`, `C97_unwritable`, `C100_exceptions`, `C102_fibonacci_partial`, `C102_fibonacci_negative`, `C107_lists_partial`, `C108_not_positive`, `C108_wrapped`, `C109_one_each`, `C109_stream`, `C109_seed_cut`, `C109_pause_partial`, `C109_pause_skipped`
* `[propext]`: `C13_zero_denominator`, `C17_not`, `C41_not_empty`, `C42_value_partial`, `C44_mod`, `C49_stderr_lost`, `C49_number_cut`, `C50_Module_fresh_in_body`, `C53_top_level`, `C54_counts_lost`, `C78_scan`, `C85_length_wrong`, `C85_take_wrapped`, `C86_head`, `C96_next_input`, `C97_shadowed`, `C98_ends`, `C107_lists_unknown`, `C109_seed_decides`, `C126_allTrue_atom`
* `[none]`: `C43_one`

## 7. Wrong programs

`seeded/LOG.jsonl` has one line per attempted wrong program: the definition edited, the edit, the claim it breaks, the theorems that failed, and the theorems that were tightened because the edit
survived at first. The edits are made in a copy outside `/verif`.
