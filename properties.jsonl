{"id": "C01", "title": "Canonical comparison is antisymmetric", "statement": "Whenever the canonical comparison of two expressions gives an answer (the one built-in refusal -2 aside), swapping the arguments gives exactly the negated answer: Order[a,b] == -Order[b,a]. In particular Order[a,a]==0.", "quantifier": "every pair of expressions, of any depth and width", "why_tests_cant": "there are infinitely many pairs of nested expressions; the comparison recurses through several mixed-type cases", "anchors": ["expreduce/atoms/order.go ExOrder", "expreduce/atoms/string_utils.go compareStrings"]}
{"id": "C02", "title": "Canonical comparison always terminates", "statement": "Comparing any two expressions returns after finitely many recursive calls, even though the comparison wraps operands as Times[1,a] and Power[a,1] before recursing.", "quantifier": "every pair of expressions", "why_tests_cant": "a looping pair could hide anywhere in the infinite domain; tests only show termination of sampled pairs", "anchors": ["expreduce/atoms/order.go ExOrder"]}
{"id": "C03", "title": "Canonical comparison of numbers is a total preorder consistent with value", "statement": "On integers, rationals and reals the canonical comparison is transitive and total, and on exact numbers that are distinguishable at working precision it agrees with numeric order.", "quantifier": "all triples of integers, rationals and reals", "why_tests_cant": "unboundedly many triples; rounding boundaries are exactly where samples miss", "anchors": ["expreduce/atoms/order.go ExOrder"]}
{"id": "C04", "title": "Sorting returns an ordered permutation", "statement": "Sort (and the sort applied to arguments of Orderless heads) returns a rearrangement of exactly the same elements with the head kept in place, with no adjacent pair out of canonical order.", "quantifier": "every list of expressions and every result the library sort may produce", "why_tests_cant": "the library sort is unstable and the list length is unbounded", "anchors": ["expreduce/atoms/ex_expression.go Less", "expreduce/atoms/ex_expression.go Swap", "expreduce/builtin_sort.go"]}
{"id": "C05", "title": "Orderless canonical form is unique", "statement": "Two permutations of the same arguments under an Orderless head sort to the same expression. (False in the code: distinct expressions may compare as equal; what holds is equality up to canonical ties.)", "quantifier": "every argument list and every permutation of it", "why_tests_cant": "n! permutations of unboundedly long lists", "anchors": ["expreduce/atoms/order.go ExOrder", "expreduce/eval.go evalExpression (Orderless sort)"]}
{"id": "C06", "title": "String comparison is bytewise lexicographic", "statement": "Symbols and strings are canonically ordered by the lexicographic order of their bytes: a strict total order on names.", "quantifier": "all pairs/triples of strings", "why_tests_cant": "infinite domain", "anchors": ["expreduce/atoms/string_utils.go compareStrings"]}
{"id": "C07", "title": "SameQ is an equivalence relation", "statement": "a===a; a===b implies b===a; a===b and b===c imply a===c. (False for machine reals: the one-ulp tolerance is not transitive; proved on expressions that are not themselves reals.)", "quantifier": "all triples of expressions", "why_tests_cant": "infinite domain; the failure needs a chain of adjacent floats", "anchors": ["expreduce/atoms/sameq.go IsSameQ", "expreduce/atoms/ex_real.go"]}
{"id": "C08", "title": "SameQ is substitutive", "statement": "If a===b then f[a]===f[b]. (False for reals one ulp apart: the nested comparison goes through hashes.)", "quantifier": "all heads and all pairs of expressions", "why_tests_cant": "infinite domain", "anchors": ["expreduce/atoms/sameq.go IsSameQ", "expreduce/atoms/ex_real.go Hash"]}
{"id": "C09", "title": "Structural hashing distinguishes different expressions", "statement": "Two structurally different expressions never have equal fingerprints (SameQ is decided by a 64-bit fingerprint). (False: by counting there must be a collision.)", "quantifier": "all pairs of expressions", "why_tests_cant": "no test can enumerate 2^64 expressions", "anchors": ["expreduce/atoms/sameq.go hashEx", "expreduce/atoms/ex_integer.go Hash"]}
{"id": "C10", "title": "Equal is symmetric and respects numeric value", "statement": "a==b gives the same verdict as b==a, and exact numbers of equal value are never reported unequal. (False: Rational vs Integer and String vs Symbol give different verdicts in the two directions; 1/2==0.5 is False.)", "quantifier": "all pairs of expressions", "why_tests_cant": "case matrix over all type pairs and infinite values", "anchors": ["expreduce/atoms/ex_rational.go IsEqual", "expreduce/atoms/ex_integer.go IsEqual", "expreduce/atoms/ex_real.go IsEqual", "expreduce/atoms/ex_string.go IsEqual", "expreduce/atoms/ex_symbol.go IsEqual"]}
{"id": "C11", "title": "Equal verdicts are sound", "statement": "When Equal reports True for two integers or two rationals they have the same value and when it reports False they differ.", "quantifier": "all pairs of integers / rationals", "why_tests_cant": "infinite domain", "anchors": ["expreduce/atoms/ex_rational.go IsEqual", "expreduce/atoms/ex_integer.go IsEqual"]}
{"id": "C12", "title": "Less/Greater agree with numeric order on exactly representable integers, and only there", "statement": "For integers of magnitude at most 2^53, a<b is True exactly when a is less than b; beyond that the verdict is that of the 53-bit roundings (so 2^53 < 2^53+1 is False).", "quantifier": "all pairs of integers", "why_tests_cant": "unbounded integers; rounding boundary", "anchors": ["expreduce/builtin_comparison.go comparisonFn"]}
{"id": "C13", "title": "Rational normalisation", "statement": "Rational[n,d] evaluates to the integer n/d if d divides n, otherwise to the unique lowest-terms rational with positive denominator and the same value; Rational[0,0] to Indeterminate, Rational[n,0] to ComplexInfinity. Normalising twice changes nothing.", "quantifier": "all pairs of integers", "why_tests_cant": "infinite domain, sign and gcd cases", "anchors": ["expreduce/atoms/ex_rational.go evalRational / AsBigRat"]}
{"id": "C14", "title": "Exact arithmetic of numeric arguments", "statement": "Adding or multiplying any list of integers, rationals and exact complex numbers gives a number whose value is exactly the mathematical sum/product, and non-numeric arguments are returned untouched in order.", "quantifier": "every argument list of any length, any mixture of types", "why_tests_cant": "unbounded lists and integers, type promotion order", "anchors": ["expreduce/atoms/calculator.go ComputeNumericPart", "expreduce/builtin_arithmetic.go Plus / Times"]}
{"id": "C15", "title": "Collecting like terms preserves value", "statement": "Plus's like-term collection returns an expression with the same value as the input under every assignment of numbers to the non-numeric terms.", "quantifier": "every argument list, every assignment", "why_tests_cant": "unbounded list length, infinite assignments", "anchors": ["expreduce/builtin_arithmetic.go collectTerms", "expreduce/builtin_arithmetic.go splitTerm", "expreduce/builtin_arithmetic.go collectedToTerm"]}
{"id": "C16", "title": "Integer powers are exact", "statement": "For integers b and p, Power[b,p] evaluates to exactly b^p (a reduced rational when p is negative), 0^0 to Indeterminate and 0^negative to ComplexInfinity.", "quantifier": "all integer pairs", "why_tests_cant": "infinite domain", "anchors": ["expreduce/builtin_power.go Power"]}
{"id": "C17", "title": "Boolean connectives are sound three-valued logic", "statement": "And/Or/Not results: under every truth assignment of the unevaluated arguments the simplified result has the same truth value as the original; False (True) anywhere makes And (Or) decide, and arguments after the deciding one are never evaluated.", "quantifier": "all argument lists, all assignments", "why_tests_cant": "2^n assignments, unbounded n", "anchors": ["expreduce/builtin_boolean.go"]}
{"id": "C18", "title": "Pattern sequence allocation is complete and duplicate free", "statement": "When a sequence pattern list is matched against l arguments, the engine proposes every way of splitting the l arguments among the pattern elements within their length bounds, each exactly once, and nothing else.", "quantifier": "every number of arguments and every list of length bounds", "why_tests_cant": "exponentially many splittings", "anchors": ["expreduce/matcher/allocations.go allocIter"]}
{"id": "C19", "title": "Orderless assignment enumeration is complete and duplicate free", "statement": "For an Orderless head the engine proposes every assignment of arguments to pattern elements that respects the per-element compatibility and the allocated counts, each exactly once (arguments within an element in increasing position).", "quantifier": "every number of arguments, forms, compatibility table", "why_tests_cant": "exponentially many assignments", "anchors": ["expreduce/matcher/allocations.go assnIter"]}
{"id": "C20", "title": "Pattern matching is sound", "statement": "If a pattern matches an expression, the expression is an instance of the pattern under the bindings returned (an optional argument that is absent has the default value, a head that may be omitted is supplied), and if there are bindings that make it an instance, it matches. For a pattern of literals, blanks, named blanks and compound patterns, replacing the names by their bindings in the pattern reproduces the expression; the same name never binds two different values.", "quantifier": "every pattern of the fragment, every expression", "why_tests_cant": "infinite domain, nested repeated names", "anchors": ["expreduce/matcher/matchq.go", "expreduce/matcher/pdmanager.go", "expreduce/matcher/blank.go"]}
{"id": "C21", "title": "A failed pattern alternative leaves no bindings", "statement": "If an attempted sub-match fails, the bindings used for the final answer are those of the successful alternative only. (False: a failing PatternTest/Condition leaves the names it bound.)", "quantifier": "every pattern and expression", "why_tests_cant": "requires specific alternation of failing and succeeding branches", "anchors": ["expreduce/matcher/matchq.go", "expreduce/matcher/pdmanager.go Update"]}
{"id": "C22", "title": "Binding replacement is simultaneous substitution", "statement": "Substituting pattern bindings into a rule's right side replaces all bound names simultaneously, never re-substituting inside inserted values, and leaves expressions without bound names untouched.", "quantifier": "every expression and every binding set", "why_tests_cant": "infinite domain; capture bugs need cyclic bindings", "anchors": ["expreduce/matcher/pdreplace.go ReplacePD"]}
{"id": "C23", "title": "ReplaceAll with several rules is first-match, simultaneous", "statement": "expr /. {r1,r2,..} applies to each subexpression the first rule that matches and does not rewrite the inserted result. (False: the rules are applied one after the other, so {x,y}/.{x->y,y->x} gives {x,x}.)", "quantifier": "all expressions and rule lists", "why_tests_cant": "infinite domain", "anchors": ["expreduce/replace.go", "expreduce/builtin_replacement.go"]}
{"id": "C24", "title": "Sequence splicing is one-level flattening", "statement": "Arguments of the form Sequence[...] are spliced in place in order, everything else is kept in order, unless the head holds sequences.", "quantifier": "all argument lists", "why_tests_cant": "unbounded lists", "anchors": ["expreduce/eval.go mergeSequences"]}
{"id": "C25", "title": "Listable threading has the right shape and is elementwise", "statement": "A Listable function applied to arguments of which some are lists of one common length returns a list of that length whose i-th entry applies the function to the i-th elements (non-lists repeated); on differing lengths nothing is threaded.", "quantifier": "all heads and argument lists", "why_tests_cant": "unbounded lists", "anchors": ["expreduce/eval.go threadExpr"]}
{"id": "C26", "title": "Hold attributes control exactly which arguments are evaluated", "statement": "HoldFirst, HoldRest, HoldAll, HoldAllComplete prevent evaluation of exactly the first / all but the first / all / all arguments; others are evaluated once, left to right.", "quantifier": "all heads, attributes and argument lists", "why_tests_cant": "all combinations of attributes with unbounded argument lists", "anchors": ["expreduce/eval.go evalExpression"]}
{"id": "C27", "title": "Redefinition overrides: last assignment wins", "statement": "After any history of plain assignments to symbols, reading a symbol gives the right side of its last assignment, and assignments to other symbols have no effect on it.", "quantifier": "every finite history of assignments", "why_tests_cant": "histories are unbounded", "anchors": ["expreduce/evalstate.go Define", "expreduce/evalstate.go GetDef"]}
{"id": "C28", "title": "Definitions with the same left side replace, others are kept", "statement": "After any history of definitions for a head, the rule list has at most one rule for each left side (with the same conditionality), every left side ever defined is still there, and each unconditioned left side carries its most recent right side.", "quantifier": "every finite history of definitions", "why_tests_cant": "unbounded histories", "anchors": ["expreduce/evalstate.go Define", "expreduce/evalstate.go defineDownValues"]}
{"id": "C29", "title": "Clear only affects the named symbol", "statement": "Clear[s] removes all rules of s and leaves every other symbol's definition unchanged; clearing an unknown symbol changes nothing. (The code also drops the attributes of s, which Clear is documented to keep.)", "quantifier": "every definition state and symbol", "why_tests_cant": "all states", "anchors": ["expreduce/evalstate.go Clear", "expreduce/builtin_system.go"]}
{"id": "C30", "title": "Concurrent definition lookups never crash", "statement": "In every interleaving of concurrent lookups, presence tests and writes to the shared definition table (no deletions exist), a get after a successful presence test finds an entry.", "quantifier": "all schedules of any number of threads", "why_tests_cant": "interleavings", "anchors": ["expreduce/definition_map.go", "expreduce/evalstate.go"]}
{"id": "C31", "title": "Concurrent definitions are never lost", "statement": "Definitions of different left sides made by concurrent evaluations are all retained. (False: the read-modify-write is not atomic.)", "quantifier": "all schedules", "why_tests_cant": "interleavings", "anchors": ["expreduce/evalstate.go Define", "expreduce/definition_map.go"]}
{"id": "C32", "title": "Table enumerates the cartesian product in order", "statement": "Table/Do/Sum with several iterators visits every combination of iterator values exactly once, with the last iterator varying fastest, and visits nothing if any iterator is empty.", "quantifier": "any number of iterators of any lengths", "why_tests_cant": "unbounded products", "anchors": ["expreduce/iterspec/iterspec.go"]}
{"id": "C33", "title": "Range iterators visit min, min+step, ... up to max", "statement": "For step>0 an integer range iterator visits exactly floor((max-min)/step)+1 values min+k*step (none if max<min).  (For step<=0 with max>=min the iterator never ends.)", "quantifier": "all integers min,max,step", "why_tests_cant": "infinite domain, boundary values", "anchors": ["expreduce/iterspec/iterspec.go"]}
{"id": "C34", "title": "Part never reads outside the expression", "statement": "expr[[i]] for 1<=i<=Length returns that element, 0 returns the head, ranges a;;b, a;;All and All select the elements in the range (and apply the remaining indices to each), and any other machine-size index (negative ones included) leaves the call as it is, never a crash. (Indices beyond 64 bits are wrapped, so {a,b}[[2^64+1]] is a; [[0;;1]] repeats the head as an element.)", "quantifier": "all expressions and integers", "why_tests_cant": "all integers; boundaries", "anchors": ["expreduce/builtin_list.go applyIndex"]}
{"id": "C35", "title": "PadRight/PadLeft produce the requested length", "statement": "The result has exactly n elements; it is the truncated original or the original extended by the padding on the right side.", "quantifier": "all lists, lengths, paddings", "why_tests_cant": "unbounded", "anchors": ["expreduce/builtin_list.go"]}
{"id": "C36", "title": "List set operations", "statement": "DeleteDuplicates keeps exactly the first occurrence of each element in order; Union returns each distinct element once, sorted; Intersection and Complement contain exactly the elements with the right membership.", "quantifier": "all lists", "why_tests_cant": "unbounded lists", "anchors": ["expreduce/builtin_list.go"]}
{"id": "C37", "title": "Cases and DeleteCases partition", "statement": "For every pattern, Cases and DeleteCases split the elements of a list: each element is in exactly one of the results, order and multiplicity kept; Count is the length of Cases.", "quantifier": "all lists and patterns", "why_tests_cant": "unbounded lists", "anchors": ["expreduce/builtin_list.go"]}
{"id": "C38", "title": "Level-wise mapping touches exactly the requested levels", "statement": "Map/Scan-like walkers with a level range {m,n} (nonnegative) apply the function to exactly the subexpressions whose level lies in the range, and keep everything else.", "quantifier": "all expressions, all level ranges", "why_tests_cant": "unbounded depth", "anchors": ["expreduce/builtin_functional.go expressionWalkMap"]}
{"id": "C39", "title": "Fold, Nest and friends", "statement": "FoldList/Fold/NestList/Nest produce exactly the iterates f^k(x) resp. the prefix folds, with length n+1.", "quantifier": "all lists / counts / functions", "why_tests_cant": "unbounded", "anchors": ["expreduce/builtin_functional.go"]}
{"id": "C40", "title": "Integer partitions are complete", "statement": "IntegerPartitions[n] (and [n,k]) lists every partition of n (with at most k parts) exactly once in non-increasing form.", "quantifier": "all n,k", "why_tests_cant": "number of partitions grows superpolynomially", "anchors": ["expreduce/builtin_combinatorics.go genIntegerPartitions"]}
{"id": "C41", "title": "Permutations are complete", "statement": "Permutations[list] lists every distinct rearrangement exactly once.", "quantifier": "all lists (with repetitions)", "why_tests_cant": "n! outputs", "anchors": ["expreduce/builtin_combinatorics.go genPermutations"]}
{"id": "C42", "title": "Factorial is correct and does not disturb its argument", "statement": "n! is the factorial for n>=0, and evaluating it leaves the argument's stored value as it was. (The second half is false: the argument's big integer is destroyed.)", "quantifier": "all n", "why_tests_cant": "infinite domain; needs aliasing", "anchors": ["expreduce/builtin_combinatorics.go factorial"]}
{"id": "C43", "title": "Prime factorisation is correct", "statement": "For n>=1 FactorInteger's prime list is sorted, all prime, with product n.", "quantifier": "all n", "why_tests_cant": "infinite domain", "anchors": ["expreduce/builtin_numbertheory.go primeFactors"]}
{"id": "C44", "title": "Mod and GCD", "statement": "Mod[a,m] for m/=0 is congruent to a modulo m and lies in [0,|m|); GCD is the greatest common divisor.", "quantifier": "all integers", "why_tests_cant": "infinite domain", "anchors": ["expreduce/builtin_numbertheory.go"]}
{"id": "C45", "title": "Integer root extraction is exact", "statement": "The integer n-th root routine returns the exact root when one exists and reports inexactness otherwise.", "quantifier": "all radicands and n", "why_tests_cant": "infinite domain; Newton iteration termination", "anchors": ["expreduce/builtin_power.go nthRoot"]}
{"id": "C46", "title": "Dimensions / Transpose / Dot are safe and correct", "statement": "On rectangular arrays Dimensions is the shape, Transpose swaps it and is an involution, Dot is the matrix product; on any expression no operation crashes. (The crash freedom is false: a ragged nested list passes the dimension test.)", "quantifier": "all arrays / expressions", "why_tests_cant": "unbounded shapes", "anchors": ["expreduce/builtin_matrix.go"]}
{"id": "C47", "title": "Parsed expressions contain no parser artefacts", "statement": "After parsing, no parenthesis marker remains, associative operators are flat, and comparison chains keep their operands and operators in order.", "quantifier": "all parse trees", "why_tests_cant": "unbounded nesting", "anchors": ["expreduce/parser/interp.go"]}
{"id": "C48", "title": "Context resolution is deterministic and idempotent", "statement": "A symbol name is resolved to the first context of the path in which it is defined, else to the current context; fully qualified names are untouched; resolving twice changes nothing.", "quantifier": "all names, paths and definition states", "why_tests_cant": "all states", "anchors": ["expreduce/parser/interp.go addContextAndDefine"]}
{"id": "C49", "title": "Output streams deliver to the addressed stream", "statement": "WriteString to a known stream name delivers exactly the bytes to that stream and to no other. (False for \"stderr\": it is looked up under the number of stdin.)", "quantifier": "all histories of opens and writes", "why_tests_cant": "unbounded histories", "anchors": ["expreduce/streammanager/streammanager.go"]}
{"id": "C50", "title": "Unique names are fresh", "statement": "Each name produced by Module/Unique is not an already known symbol, and two productions never coincide. (The second part is false for Unique across prefixes.)", "quantifier": "all histories", "why_tests_cant": "unbounded histories", "anchors": ["expreduce/builtin_system.go snagUnique"]}
{"id": "C51", "title": "Attribute sets round trip", "statement": "Setting a list of attribute names and reading them back gives the same set, sorted by name, without duplicates or unknown names.", "quantifier": "all attribute lists", "why_tests_cant": "2^n subsets", "anchors": ["expreduce/atoms", "expreduce/evalstate.go"]}
{"id": "C52", "title": "Delayed definitions are re-evaluated on each use", "statement": "After x:=rhs, each evaluation of x evaluates the original rhs in the current state. (False: evaluation writes its results into the stored right side, and a finished value is never evaluated again; it holds for f[x_]:=rhs when rhs mentions x.)", "quantifier": "all histories", "why_tests_cant": "aliasing history", "anchors": ["expreduce/eval.go", "expreduce/evalstate.go GetDef"]}
{"id": "C53", "title": "Throw reaches the innermost enclosing Catch and leaves no residue", "statement": "A thrown value is returned by the innermost dynamically enclosing Catch, nothing after the Throw is evaluated, and afterwards evaluation proceeds as if no throw had occurred.", "quantifier": "all programs", "why_tests_cant": "unbounded programs", "anchors": ["expreduce/builtin_flowcontrol.go", "expreduce/evalstate.go"]}
{"id": "C54", "title": "Timing aggregation", "statement": "Merging timing counters adds both the elapsed times and the number of calls per key. (The call count is false: each merged key counts as one.)", "quantifier": "all counter histories", "why_tests_cant": "unbounded histories", "anchors": ["expreduce/timecounter/timecounter.go"]}
{"id": "C55", "title": "Canonical comparison is a total preorder on expressions", "statement": "For all expressions a, b, c: one of a<=b, b<=a holds; a<=b and b<=c imply a<=c; ties are interchangeable. (False when the bare symbol Times is an argument of an unevaluated product.)", "quantifier": "all triples of expressions of any size", "why_tests_cant": "infinite domain; the comparison mixes three different modes (products, powers, plain)", "anchors": ["expreduce/atoms/order.go ExOrder"]}
{"id": "C56", "title": "Rational powers of integers keep their value", "statement": "Whenever an integer raised to a rational power is rewritten (perfect roots, extracted prime powers, extracted factor 2), the rewritten expression has the same principal complex value, whatever order an internal map is iterated in. (False for negative bases: (-8)^(2/3) becomes 2 (-1)^(2/3).)", "quantifier": "all integers, all rational exponents in lowest terms, all map iteration orders", "why_tests_cant": "infinite domain; Go map iteration order is random", "anchors": ["expreduce/builtin_power.go radSimp, mExponent, extract", "resources"]}
{"id": "C57", "title": "PrimePi counts the primes", "statement": "PrimePi[n] is the number of primes not exceeding n for every integer n. (False at n=1.)", "quantifier": "all integers", "why_tests_cant": "infinite domain", "anchors": ["expreduce/builtin_numbertheory.go PrimePi"]}
{"id": "C58", "title": "Digits reconstruct the number", "statement": "For every integer n and base b>=2, IntegerDigits[n,b] terminates with digits in [0,b), no leading zero, and FromDigits of them in base b is |n|.", "quantifier": "all integers and bases", "why_tests_cant": "infinite domain", "anchors": ["expreduce/resources/numbertheory.m"]}
{"id": "C59", "title": "Max and Min of numbers", "statement": "Max (Min) of a list of real-valued numbers returns one of its arguments and no argument is greater (smaller) in the comparison the code uses; on integers of magnitude at most 2^53 it is the true maximum (minimum); non-numeric arguments are kept.", "quantifier": "all argument lists", "why_tests_cant": "unbounded lists", "anchors": ["expreduce/builtin_comparison.go Max, Min", "expreduce/resources/comparison.m"]}
{"id": "C60", "title": "Max terminates", "statement": "Max of any arguments returns. (False: with two or more arguments none of which is a number the scanning loop never ends.)", "quantifier": "all argument lists", "why_tests_cant": "termination", "anchors": ["expreduce/builtin_comparison.go Max"]}
{"id": "C61", "title": "Chained comparisons decide exactly the adjacent (or all) pairs", "statement": "Equal[a1,...,an] and SameQ[a1,...,an] are True exactly when the comparisons with the first argument succeed, and UnsameQ exactly when all pairs differ.", "quantifier": "all argument lists of any length", "why_tests_cant": "unbounded lists", "anchors": ["expreduce/builtin_comparison.go Equal, SameQ, UnsameQ"]}
{"id": "C62", "title": "Patterns without arguments", "statement": "A pattern expression without arguments, f[], matches only an expression without arguments, and matching it against any expression returns. (False: for an ordinary head the allocation iterator reports success for any number of arguments, so MatchQ[f[a],f[]] is True; for an Orderless head the iterator indexes an empty table and the interpreter crashes.)", "quantifier": "all argument counts", "why_tests_cant": "the failure needs an input class the tests do not contain; unbounded argument counts", "anchors": ["expreduce/iterators/allocations.go", "expreduce/matcher/matchq.go NewSequenceMatch"]}
{"id": "C63", "title": "Replace and definitions use the first applicable rule", "statement": "Replace[e, {r1,..,rk}] (and likewise the lookup of a definition) gives the right side of the first rule whose pattern matches e as a whole and whose condition, if any, evaluates to True under the bindings of that match; all ways of matching are tried before the next rule; if no rule applies e is returned.", "quantifier": "all expressions, rule lists and conditions", "why_tests_cant": "unbounded rule lists, patterns and match results", "anchors": ["expreduce/replace.go replace, tryCondWithMatches", "expreduce/builtin_replacement.go rulesReplace, Replace"]}
{"id": "C64", "title": "ReplaceRepeated stops at the first stable result", "statement": "e //. rules returns exactly the first of the successive results of /. that is the same as its predecessor, and does not return if there is none.", "quantifier": "all expressions, rules and numbers of rounds", "why_tests_cant": "unbounded number of rounds", "anchors": ["expreduce/builtin_replacement.go ReplaceRepeated"]}
{"id": "C65", "title": "Applying a pure function substitutes its arguments for the slots", "statement": "(body&)[a1,..,an] is body with each #k (k<=n) replaced by ak simultaneously, except inside nested pure functions; Function[x,body][a] is body with a for x, except inside nested pure functions. (False for arguments that contain slots, for Function[x,body][] which crashes, and for lists of parameters.)", "quantifier": "all bodies and argument lists", "why_tests_cant": "unbounded terms", "anchors": ["expreduce/eval.go evalFunction"]}
{"id": "C66", "title": "Rules are tried from the most to the least specific", "statement": "After any history of definitions the rules of a symbol are ordered by decreasing specificity, rules of equal specificity in order of first definition; redefining a rule does not move it.", "quantifier": "every finite history of definitions and clears", "why_tests_cant": "unbounded histories", "anchors": ["expreduce/evalstate.go Define, ruleSpecificity"]}
{"id": "C67", "title": "Repeating a definition changes nothing", "statement": "Making the same definition twice in a row has the effect of making it once (SetDelayed does define twice), and while the evaluator is frozen definitions have no effect.", "quantifier": "every finite history followed by any definition", "why_tests_cant": "unbounded histories", "anchors": ["expreduce/evalstate.go Define", "expreduce/builtin_system.go SetDelayed"]}
{"id": "C68", "title": "Assignments to invalid left sides are rejected", "statement": "An assignment whose left side cannot be defined leaves the definitions unchanged and the session alive, and f[x_]/;c := r defines a rule for f. (False: assigning to a number, a string or f[1][2], or f[x_]:=1 after f=3, ends the process; a condition on the left side is stored as a rule of Condition.)", "quantifier": "all left sides and states", "why_tests_cant": "error paths over an infinite domain", "anchors": ["expreduce/evalstate.go Define", "expreduce/builtin_system.go SetDelayed"]}
{"id": "C69", "title": "Evaluation is idempotent", "statement": "Evaluating the result of an evaluation again returns it unchanged, if the called functions and rules have no effects. (False with Return: the value of a call whose rule gives Return[x] is x itself, not the value of x.)", "quantifier": "all expressions, rule sets without effects and terminating evaluations", "why_tests_cant": "ranges over all programs and all lengths of evaluation", "anchors": ["expreduce/eval.go Eval, evalExpression, tryReturnValue"]}
{"id": "C70", "title": "Flat functions are flattened", "statement": "Nested calls of a Flat function inside its own arguments are flattened before built-in implementations and rules see the call, and in the result. (False for the result: a Flat symbol without implementation and rule keeps its nested calls.)", "quantifier": "all Flat symbols and argument lists", "why_tests_cant": "unbounded argument lists and nesting", "anchors": ["expreduce/eval.go evalExpression, mergeSequences"]}
{"id": "C71", "title": "The order of the arguments of an Orderless function does not matter", "statement": "A call of an Orderless symbol without rules evaluates to the same arguments in canonical order; calls whose arguments are permutations of each other have results that agree up to ties of the order.", "quantifier": "all Orderless symbols, argument lists and permutations", "why_tests_cant": "unbounded argument lists", "anchors": ["expreduce/eval.go evalExpression", "expreduce/atoms/ex_expression.go Less, Swap"]}
{"id": "C72", "title": "Unevaluated keeps its argument from being evaluated", "statement": "f[Unevaluated[e]] passes e unevaluated to f, and if nothing is defined for f the call stays as written. (False: after one pass the wrapper is gone and e is evaluated by the next; it is also removed inside functions that hold everything completely.)", "quantifier": "all functions and arguments", "why_tests_cant": "ranges over all expressions", "anchors": ["expreduce/eval.go evalExpression, mergeSequences"]}
{"id": "C73", "title": "No input crashes the interpreter", "statement": "Evaluating any expression returns or runs on, but does not end the process. (False: a call without arguments whose head evaluates to Sequence[] and CompoundExpression[] panic, and nothing recovers panics.)", "quantifier": "all expressions", "why_tests_cant": "ranges over all expressions", "anchors": ["expreduce/eval.go evalExpression", "expreduce/builtin_flowcontrol.go CompoundExpression"]}
{"id": "C74", "title": "Iteration variables are restored", "statement": "After Table/Do/Sum/Product with symbols as iteration variables ends normally, each variable has the value it had before (or none), and no other symbol was touched by putting it back. (A variable that had no value loses its other rules and attributes; a Do left by Throw or Return leaves the variables as they are.)", "quantifier": "all states, iterators, bodies", "why_tests_cant": "holds for every body and every earlier definition of the variables", "anchors": ["expreduce/iterspec/iterspec.go TakeVarSnapshot, RestoreVarSnapshot", "expreduce/builtin_flowcontrol.go Do"]}
{"id": "C75", "title": "Append, Prepend, Reverse and Join", "statement": "Append/Prepend add exactly the given element at the end/front, Reverse reverses the elements, Join concatenates the elements of all arguments in order; the head is kept.", "quantifier": "all expressions with any head and any number of elements", "why_tests_cant": "unbounded lists", "anchors": ["expreduce/builtin_list.go Append/Prepend/Reverse/Join"]}
{"id": "C76", "title": "Flatten splices nested calls of the same head", "statement": "Flatten[h[...], n] is the result of n rounds of replacing arguments with head h by their arguments; Flatten[h[...]] leaves no argument with head h; order and everything else is kept.", "quantifier": "all expressions, heads and level counts", "why_tests_cant": "unbounded nesting depth and width", "anchors": ["expreduce/builtin_expression.go flattenExpr, Flatten"]}
{"id": "C77", "title": "NestWhileList stops at the first value that fails the test", "statement": "NestWhileList[f, x, test, m] lists x, f[x], ... up to and including the first value for which there are m values and the test of the last m is not True; a limit on the number of applications is kept. (False: the starting value is never tested and f is applied at least once, even with limit 0.)", "quantifier": "all functions, tests, counts and limits", "why_tests_cant": "the number of applications is unbounded", "anchors": ["expreduce/builtin_functional.go NestWhileList"]}
{"id": "C78", "title": "Select and Scan visit the elements in order", "statement": "Select[l, f] keeps exactly the elements whose test evaluates to True, testing them one after the other, and Select[l, f, n] stops testing after n successes; Scan evaluates f on the elements in order and stops at the first Return or Throw.", "quantifier": "all lists, functions and states", "why_tests_cant": "unbounded lists; every test may change the state seen by the next", "anchors": ["expreduce/builtin_list.go Select, Scan"]}
{"id": "C79", "title": "FixedPoint stops at the first repetition", "statement": "FixedPoint[f, x] returns v exactly if v = f[y] evaluates to y again, where y is the first iterate of x for which this happens.", "quantifier": "all functions, starting values and states", "why_tests_cant": "the number of iterations is unbounded", "anchors": ["expreduce/builtin_functional.go FixedPoint"]}
{"id": "C80", "title": "Distribute multiplies out", "statement": "Distribute[f[...], g] is g of all calls of f that arise by choosing one argument from every argument that is a call of g: every combination exactly once per choice, in order, their number is the product of the argument counts.", "quantifier": "all argument lists and heads", "why_tests_cant": "the number of combinations is exponential in the number of arguments", "anchors": ["expreduce/builtin_manip.go distribute"]}
{"id": "C81", "title": "Chained comparisons mean the conjunction of their parts", "statement": "Inequality[a, op, b, op, c, ...] evaluates to True or False only if the conjunction of the comparisons of neighbours is true or false; a partly evaluated chain is equivalent to the original. (False: x<1<2<y becomes x<1<y, and 1==1<2 becomes False.)", "quantifier": "all chains, operators and assignments of values to the symbols", "why_tests_cant": "unbounded chains; every assignment of values", "anchors": ["expreduce/builtin_comparison.go Inequality, getCompSign"]}
{"id": "C82", "title": "Pattern tokens mean what they say", "statement": "x_h, x__h and x___h (with x or h possibly missing) are read as the pattern with name x, the blank kind given by the number of underscores and head h; x_. is the optional x_; different name, underscore count or head give different patterns.", "quantifier": "all names without underscores and one to three underscores", "why_tests_cant": "names are unbounded strings", "anchors": ["expreduce/parser/interp.go parsePattern"]}
{"id": "C83", "title": "FullForm output reads back as the same expression", "statement": "ToString[e, FullForm] writes every expression (without real or complex numbers) as head[arg, arg, ...]; the text has exactly one reading, and reading it in the same session gives the expression back, provided that its names come back. Disagreements: a symbol hidden by another of the same short name, a symbol in a nested context, strings with quotation marks, negative numbers used as heads and format wrappers do not come back.", "quantifier": "all expressions without real and complex numbers, all contexts, context paths and states of the session", "why_tests_cant": "the set of expressions is infinite; tests compare a few printed texts and never read them back", "anchors": ["expreduce/atoms/ex_expression.go:StringForm", "expreduce/atoms/ex_symbol.go:StringForm", "expreduce/atoms/ex_string.go:StringForm", "expreduce/atoms/ex_rational.go:StringForm", "expreduce/builtin_string.go:ToString", "expreduce/parser/interp.go:InterpBuf"]}
{"id": "C84", "title": "InputForm puts enough parentheses", "statement": "An expression built from names, integers, strings, lists, calls and the operators (+, *, ^, ==, !=, ===, =!=, <, >, <=, >=, &&, ||, <>, =, :=, ->, :>, /., //.) is printed in InputForm as a text that a reader knowing only the operator precedences reads in exactly one way, and reading it back in the same context gives the expression again; two such expressions with the same text are equal. Negative numbers as operands, operators as heads, quotients and exponents equal to -1 modulo 2^64 are excluded: for them the text is ambiguous, and a sum with an empty text in OutputForm crashes.", "quantifier": "every expression of that shape, every context and path, every state of the definitions in which its names come back, every assignment of precedences shared by printer and reader", "why_tests_cant": "whether an operand needs parentheses depends on the operator around it at every level of an arbitrarily nested expression; tests print a few expressions", "anchors": ["expreduce/string.go:toStringInfix", "expreduce/string.go:toStringInfixAdvanced", "expreduce/parser/parens/parens.go:NeedsParens", "expreduce/builtin_arithmetic.go:getArithmeticDefinitions", "expreduce/builtin_power.go:getPowerDefinitions", "expreduce/atoms/ex_expression.go:StringForm"]}
{"id": "C85", "title": "String functions compute with the whole text and never crash", "statement": "StringJoin of strings is their concatenation in order and stays unevaluated if any argument is not a string; StringLength of an ASCII text is its number of characters (of any other text it is more: it counts bytes); StringTake[s,{m,n}] never crashes, gives the bytes m to n when 1<=m<=n<=length, the empty string when n is before m, and stays unevaluated otherwise; taking the two halves of a string and joining them gives the string back; StringReplace[s, a->b] replaces the instances of a from the left without overlap and leaves everything else.", "quantifier": "all byte strings, all integer positions, all argument lists", "why_tests_cant": "Tests use a handful of short ASCII strings; positions, lengths and overlaps range over an infinite set and the non-ASCII and 64-bit cases are where the promise breaks.", "anchors": ["expreduce/builtin_string.go: GetStringDefinitions, StringJoin, StringLength, StringTake, StringReplace"]}
{"id": "C86", "title": "Head, Length, Depth and LeafCount describe the tree of the expression", "statement": "LeafCount[e] is the number of places in e, heads included, with an atom; Depth[e] is one more than the longest way through arguments to an atom; Length[e] is the number of arguments; Head[e] is part 0 or the type name of an atom; the size used by Simplify is never below LeafCount.", "quantifier": "all expressions", "why_tests_cant": "Expressions are unbounded trees; tests look at a few small ones.", "anchors": ["expreduce/builtin_expression.go: calcDepth, leafCount, leafCountSimplify, GetExpressionDefinitions"]}
{"id": "C87", "title": "Reap returns what was sown, in order", "statement": "Reap[e] returns {value of e, {{sown values}}} where the sown values are those of the Sow calls evaluated while e was evaluated, in the order of evaluation (arguments from left to right, statements one after the other); Sow[e] has the value of e; evaluation never loses or reorders what has been sown. Disagreement: a Reap inside of another one throws away what the outer one has collected.", "quantifier": "all programs, all states, all nestings of Sow", "why_tests_cant": "The order and completeness of side effects quantifies over all programs; unit tests run two or three.", "anchors": ["expreduce/builtin_system.go: Sow, Reap", "expreduce/evalstate.go: GetReapSown, SetReapSown"]}
{"id": "C88", "title": "Names lists exactly the known names that match", "statement": "Names[pattern] lists the names with an entry that match the pattern, each once, in the order of their bytes; a star stands for any sequence of characters and every other character for itself; Names[] lists all. Disagreements: a dollar sign in the pattern (legal in names) makes the result empty, a dot stands for any character.", "quantifier": "all sets of names and all patterns without regular expression syntax", "why_tests_cant": "names and patterns are unbounded strings and the matching goes through a regular expression built from the pattern", "anchors": ["expreduce/builtin_system.go: Names"]}
{"id": "C89", "title": "A file is run statement by statement", "statement": "Running a file (Get, the command line, ReadList) reads and evaluates its statements one after the other, each in the state left by the ones before; the value is that of the last one (Null if there is none), ReadList gives all values in order; after a syntax error nothing further is run. Disagreement: at a syntax error with fewer than 100 bytes left in the file the interpreter crashes.", "quantifier": "all texts, all readers, all evaluators and states", "why_tests_cant": "files and the state changes of their statements are unbounded; the crash depends on the number of bytes behind the error", "anchors": ["expreduce/easyrun.go: EvalInterpMany, ReadList", "expreduce/parser/interp.go: InterpBuf"]}
{"id": "C90", "title": "Matching and rules keep the meaning of expressions", "statement": "If an expression matches a pattern, then the pattern with the matched values put in for its names has the same value as the expression, in every interpretation of the functions that agrees with their attributes (Flat, Orderless, OneIdentity) and default values. Hence a rule whose two sides have equal (or related) values for all bindings replaces an expression only by one with an equal (related) value.", "quantifier": "all interpretations, patterns, expressions and rules", "why_tests_cant": "Whether a rewrite is right depends on every way in which Flat, Orderless and optional arguments can be shared out; tests see a few expressions and one interpretation.", "anchors": ["expreduce/matcher/matchq.go: IsMatchQ", "expreduce/replace.go: replacePD, tryCondWithMatches", "expreduce/evalstate.go: GetDef"]}
{"id": "C91", "title": "Evaluation keeps the mathematical value", "statement": "Whatever complex numbers the symbols stand for: if an expression in exact numbers, symbols, sums, products, powers and other functions has a value, then the result of evaluating it has the same value, provided that the rules of the table are sound and no coincidence of fingerprints (and none of the known wrong powers) occurs on the way.", "quantifier": "all interpretations of the symbols and functions, all tables of sound rules, all expressions, all numbers of evaluation steps, all orders of Go map iteration", "why_tests_cant": "An evaluation combines flattening, sorting, threading, the builtin functions and rules in an unbounded number of passes; a test compares one expression with one expected output and no test fixes the values of the symbols.", "anchors": ["expreduce/eval.go:23-330 Eval", "expreduce/builtin_arithmetic.go Plus, Times", "expreduce/builtin_power.go Power", "expreduce/builtin_atoms.go Rational, Complex", "expreduce/evalstate.go:328-358 GetDef"]}
{"id": "C92", "title": "The algebraic rules that come with the interpreter are right", "statement": "Each of the listed rules of power.m, arithmetic.m and trig.m (products of powers, powers of powers, powers of products and fractions, logarithms, square roots, special values and symmetries of the trigonometric functions) replaces an expression that has a value by one with the same value, for all complex numbers that the symbols may stand for and with the principal branches of powers and logarithms. Hence evaluation with these rules, in whatever order they are tried, keeps the value.", "quantifier": "all interpretations of the symbols, all expressions, all bindings found by the matcher (any number of arguments for a sequence, any grouping for Flat and Orderless functions), all orders of the rules, all numbers of evaluation steps", "why_tests_cant": "A rewrite rule is right only if it holds on all branches and for all numbers of arguments; the test files evaluate a few instances and compare them with the expected form, not with the value.", "anchors": ["expreduce/resources/power.m:3-80, 231-253, 277", "expreduce/resources/arithmetic.m:125-141", "expreduce/resources/trig.m:2-80", "expreduce/builtin_system.go:542-585 SetDelayed", "expreduce/evalstate.go:471-599 Define"]}
{"id": "C93", "title": "Which of the remaining shipped rules are right, and where they are wrong", "statement": "The rules (a^b)^c = a^(b c) for a rational b, (n x)^p = n^p x^p for a number n, a^c b^c = (a b)^c for integers, E^(Log[a] + rest) = a E^rest, Cot[-a + b] = -Cot[a - b], Log[E^p] = p and Log[1/b] = -Log[a] of the shipped library do not hold in general: evaluation with them changes the value of an expression. They are right for an integer c, a positive n, a positive a, exactly one other term, and an imaginary part of p in (-Pi, Pi], respectively.", "quantifier": "for each rule: a counterexample run by the interpreter, and all expressions and interpretations for the restricted rule", "why_tests_cant": "A test that shows a wrong result needs the value of the expression at a point on the wrong branch, or a sum with enough terms; the restricted rules hold for all expressions.", "anchors": ["expreduce/resources/power.m:7, 54, 79, 239, 240", "expreduce/resources/arithmetic.m:127", "expreduce/resources/trig.m:59"]}
{"id": "C94", "title": "D computes the derivative", "statement": "If `D[f, x]` evaluates to an expression `g` that contains no `D`, and `f` (built from numbers, symbols, sums, products, powers and elementary functions) has a value for all complex values of `x` in an open dense set, then on an open dense set `f` is a differentiable function of `x`, and `g` has the value of its derivative there; if the values of `g` are continuous on an open set where `f` is differentiable, `g` is the derivative everywhere on it.", "quantifier": "all expressions `f` of the fragment, all symbols `x`, all values of the other symbols, all orders of the rules, and all evaluations however long", "why_tests_cant": "a test differentiates one function; the rules of D are applied recursively to expressions of any size, together with all rules that simplify the result, and each of these must be right for all values of the symbols", "anchors": ["expreduce/resources/calculus.m: D (lines 2-15)", "expreduce/resources/arithmetic.m", "expreduce/resources/power.m", "expreduce/resources/trig.m", "expreduce/eval.go: evalExpression", "expreduce/replace.go: Replace"]}
{"id": "C95", "title": "A Graphics expression shows its lines in the right style", "statement": "Exporting Graphics[picture] draws every Line of the picture, in the order in which they stand, through its points, in the colour, opacity and thickness set by the directives that stand before it in the lists it is in; directives inside an inner list do not affect anything outside; other primitives are skipped; it fails exactly if a line or a known directive is malformed.", "quantifier": "all expressions, all nestings of lists, directives and lines", "why_tests_cant": "the style depends on every directive on the way to a line; a test compares a few pictures", "anchors": ["expreduce/graphics/graphics.go: Render, renderPrimitive, setDirective, renderLine", "expreduce/builtin_string.go: ExportString"]}
{"id": "C96", "title": "An interrupt ends the running evaluation and nothing else", "statement": "After Ctrl-C the running evaluation comes to an end (with $Aborted where it was cut), and later inputs are evaluated as usual.", "quantifier": "all programs, all states in which the interrupt can arrive", "why_tests_cant": "the moment of the interrupt and the program are arbitrary, and programs that need it do not terminate", "anchors": ["expreduce/evalstate.go: NewEvalState, ProcessTopLevelResult", "expreduce/eval.go: tryReturnValue, evalExpression, evalSymbol"]}
{"id": "C97", "title": "Save and Get restore definitions", "statement": "If Save[file, {names}] has written the file, Get[file] in any later session gives each of these names exactly the rules, attributes and default value it had, and changes no other name; if one of the names is not defined nothing is written and the call is returned.", "quantifier": "all sessions, all lists of names, all contents of the disk", "why_tests_cant": "the saved definitions and the session that loads them are arbitrary", "anchors": ["expreduce/builtin_system.go: Save, Get, tryReadFile", "expreduce/atoms/gob.go: RegisterGobAtoms"]}
{"id": "C98", "title": "A crash during Save loses nothing", "statement": "If the process dies during Save, the file holds afterwards either what it held before or the complete new definitions.", "quantifier": "all crash points, all previous contents", "why_tests_cant": "the crash point is arbitrary", "anchors": ["expreduce/builtin_system.go: Save"]}
{"id": "C99", "title": "FreeQ finds every occurrence", "statement": "FreeQ[e, x] is True exactly if the symbol x occurs nowhere in e, and FreeQ[e, pattern] is True exactly if no subexpression of e, heads included, is an instance of the pattern.", "quantifier": "all expressions, all symbols and patterns", "why_tests_cant": "occurrences can be at any depth; tests try a few", "anchors": ["expreduce/resources/pattern.m: FreeQ", "expreduce/replace.go: replaceAll", "expreduce/eval.go: exprReplaceAll"]}
{"id": "C100", "title": "FactorInteger and EulerPhi", "statement": "FactorInteger[q] of a nonzero integer or rational other than 1 gives a sign (if negative) and primes in increasing order with nonzero exponents whose product is q; EulerPhi[n] is the number of integers up to |n| coprime to n.", "quantifier": "all rationals, all integers", "why_tests_cant": "the numbers are unbounded", "anchors": ["expreduce/resources/numbertheory.m: FactorInteger, EulerPhi", "expreduce/resources/list.m: Tally"]}
{"id": "C101", "title": "GCD, LCM, Mod and parts of rational numbers", "statement": "GCD of integers and rationals is the nonnegative number that divides them all and that every common divisor divides, whatever order the rules are applied in; LCM is the positive least common multiple; Mod[q, c] lies in [0, |c|) and differs from q by a multiple of c; IntegerPart and FractionalPart add up to the number. (LCM is false for negative arguments and for LCM[0, 0].)", "quantifier": "all lists of rationals, all orders of rule application", "why_tests_cant": "the numbers are unbounded and the rules can pick arguments in many ways", "anchors": ["expreduce/resources/numbertheory.m: GCD, LCM, Mod, FractionalPart, IntegerPart, Sign", "expreduce/builtin_numbertheory.go: GCD, Mod"]}
{"id": "C102", "title": "Fibonacci, Multinomial and Tuples", "statement": "Fibonacci[n] is the n-th Fibonacci number; Multinomial is the multinomial coefficient; Tuples[list, n] lists every n-tuple of elements exactly once. (Fibonacci of a negative number never ends.)", "quantifier": "all integers and lists", "why_tests_cant": "sizes are unbounded", "anchors": ["expreduce/resources/numbertheory.m: Fibonacci", "expreduce/resources/combinatorics.m: Multinomial, Tuples"]}
{"id": "C103", "title": "Polynomial equations of degree 2, 3 and 4", "statement": "The rules by which Solve treats polynomial equations of degree 2, 3 and 4 read off the coefficients and give all zeros of the polynomial, with their multiplicity, as complex numbers. (False: if the number below the cube root vanishes, as for x^3 - 3 x^2 + 3 x + 7 == 0 or (x - 1)^4 == 0, all solutions contain a division by 0; no rule covers 1 + x^2 + x^4 == 0.)", "quantifier": "all expressions that are polynomials of these degrees in the variable, with symbolic or numeric coefficients, all values of the symbols", "why_tests_cant": "the coefficients are arbitrary expressions and complex numbers", "anchors": ["expreduce/resources/equationdata.m: solveQuadratic, solveCubic, solveQuartic", "expreduce/resources/solve.m: solveQuadratic, solveCubic, solveQuartic"]}
{"id": "C104", "title": "Inverse", "statement": "Inverse of a matrix of one, two or three rows gives the inverse matrix if there is one, and entries without value (a division by 0) if there is none; no rule applies to larger matrices.", "quantifier": "all square matrices of expressions, all values of the symbols", "why_tests_cant": "entries are arbitrary expressions and complex numbers", "anchors": ["expreduce/resources/matrix.m: Inverse"]}
{"id": "C105", "title": "Two linear equations in two variables", "statement": "Solve of two linear equations in two variables with these rules gives the only pair of numbers that satisfies both equations, if the determinant is not 0, and a solution without value otherwise.", "quantifier": "all linear equations with arbitrary expressions as coefficients", "why_tests_cant": "coefficients are arbitrary expressions and complex numbers", "anchors": ["expreduce/resources/solve.m: Solve (lines 317, 318)"]}
{"id": "C106", "title": "ReplaceList and MatchQ", "statement": "MatchQ answers True exactly if the expression is an instance of the pattern. ReplaceList[e, l -> r] has one entry for every way the matcher finds, every entry is the right side with the names replaced by values under which e is an instance of l, and no way to match is missed.", "quantifier": "all expressions and patterns of the covered forms, all right sides", "why_tests_cant": "patterns with sequences match in any number of ways", "anchors": ["expreduce/builtin_pattern.go: MatchQ, ReplaceList"]}
{"id": "C107", "title": "DownValues lists the rules, and assigning the list back changes nothing", "statement": "DownValues[f] is the list of the stored rules of f in the order in which they are tried. Assigning this list to DownValues[f] keeps every rule and its place, and later assignments to any symbol have the same effect as without it.", "quantifier": "all states of the definition table that assignments can reach, all later sequences of assignments", "why_tests_cant": "histories of assignments are unbounded", "anchors": ["expreduce/builtin_system.go: DownValues", "expreduce/evalstate.go: Define, defineDownValues"]}
{"id": "C108", "title": "Prime", "statement": "Prime[n] is the nth prime number.", "quantifier": "all positive integers up to the limit in the code, all behaviours of the machine arithmetic that keep the bound large enough", "why_tests_cant": "unbounded inputs", "anchors": ["expreduce/builtin_numbertheory.go: Prime"]}
{"id": "C109", "title": "Random numbers and pauses", "statement": "After SeedRandom[n] the numbers RandomReal[] gives depend on n and the calls that follow only; every call gives one number of the generator. Pause[n] waits n seconds.", "quantifier": "all sequences of calls, all generators, all seeds; all integers", "why_tests_cant": "histories of calls are unbounded", "anchors": ["expreduce/builtin_random.go: SeedRandom, RandomReal", "expreduce/builtin_time.go: Pause"]}
{"id": "C110", "title": "Trace observes without changing", "statement": "Tracing changes neither the value nor the state nor the termination of an evaluation; Trace[e] evaluates e and leaves the state e leaves, with tracing off afterwards. What has been recorded stays recorded, the entries are the steps HoldForm[...] and lists of at least two entries for arguments, the call with evaluated arguments is among them, and the trace of a chain of rewrites is this chain and its value. (False: a caught throw makes the trace forget what came before, Trace inside Trace turns tracing off, Trace of a symbol with a value is empty.)", "quantifier": "all expressions, states, traces, interpreters (builtin functions as programs that call the evaluator)", "why_tests_cant": "unbounded evaluations and nesting", "anchors": ["expreduce/eval.go: Eval, evalExpression", "expreduce/builtin_system.go: Trace", "expreduce/evalstate.go: GetTrace, SetTrace"]}
{"id": "C111", "title": "The session history is what was typed and what came out", "statement": "After a session of k inputs, $Line is k+1, the rules of In are exactly In[i] := (input i) and the rules of Out exactly Out[i] = (output i), also when inputs throw. (False: Clear[$Line] crashes the interpreter at the end of that same input; an interrupt together with an uncaught throw leaves $Line where it is, and the next input overwrites the entry.)", "quantifier": "all sequences of inputs, all evaluators that leave In, Out, $Line and $PrePrint alone", "why_tests_cant": "unbounded sessions", "anchors": ["expreduce/evalstate.go: ProcessTopLevelResult", "expreduce.go: interactiveSession"]}
{"id": "C112", "title": "Integration rules give antiderivatives", "statement": "If a rule of the integration package is applied to Int[u, x], every function that the right side stands for (integrals in it standing for any antiderivative) has the derivative u, except on a nowhere dense set; hence if the rules, applied any number of times at any depth, lead to an expression without integrals, its derivative is u.", "quantifier": "all integrands u, all variables x, all values of the parameters in the complex numbers, all sequences of rule applications, for 28 of the rules", "why_tests_cant": "infinitely many integrands and parameter values; derivatives at all points", "anchors": ["expreduce/resources/rubi/1.1.1 Linear binomial products.m", "expreduce/resources/rubi/9.1 Integrand simplification rules.m", "expreduce/resources/calculus.m: Integrate"]}
{"id": "C113", "title": "A definite integral is the integral", "statement": "Integrate[a, {x, s, e}] has the value of the integral of a from s to e, if the antiderivative found is continuous on the interval and differentiable there except at countably many points. (False otherwise: Integrate[1/x^2, {x, -1, 1}] is -2 although the integrand is positive.)", "quantifier": "all antiderivatives, bounds, integrands", "why_tests_cant": "infinitely many integrands and bounds", "anchors": ["expreduce/resources/calculus.m: Integrate", "expreduce/builtin_replacement.go: ReplaceAll"]}
{"id": "C114", "title": "Expand keeps the value", "statement": "Expand[e] has the value of e wherever e has one, if in every expression it goes through only one of its two rules (power of a sum, product with a sum) changes something; the expansion of a power of a sum has every monomial exactly once, with the multinomial coefficient. (False if both rules act in one round: Expand[(c x + c (y - x))^2] gives c^2 + 2 c y + y^2 instead of c^2 y^2.)", "quantifier": "all expressions, all values of symbols and functions in the complex numbers, all exponents and numbers of addends", "why_tests_cant": "infinitely many expressions and values", "anchors": ["expreduce/resources/power.m: Expand, expandRules, genExpand, possibleExponents", "expreduce/builtin_replacement.go: ReplaceRepeated"]}
{"id": "C115", "title": "With puts the values in place; Switch takes the first case that matches", "statement": "With[{x1 = v1, ...}, body] is the body with each variable replaced by its value, all at once if no value mentions a variable declared later; a declaration of another form makes it return unchanged. Switch[e, p1, v1, ...] is the value beside the first pattern that e matches, and it is unchanged if none does. (False in general for With: a later declaration also acts on earlier values, With[{x = y, y = 2}, x] is 2, and bound variables of inner functions are replaced.)", "quantifier": "all bodies, declarations, expressions and lists of cases", "why_tests_cant": "unboundedly many declarations and cases; hygiene is a property of all bodies", "anchors": ["expreduce/builtin_flowcontrol.go: applyWithFn, With, Switch", "expreduce/builtin_replacement.go: rulesReplaceAll"]}
{"id": "C116", "title": "Simplifying a logical expression keeps its truth value", "statement": "booleanSimplify (the first step of Simplify) rewrites And, Or and Not by 18 rules until nothing changes; whatever truth value the expression has under an interpretation of its symbols and functions, the result has the same. (False in general: the Sequence[] left by a pattern ___ that took nothing stays in the expression until the end of the round and the later rules take it for an argument, so (q || q || r) && p && (p || r) becomes p.)", "quantifier": "all expressions, interpretations of symbols and functions, and numbers of rounds", "why_tests_cant": "infinitely many formulas, and every rule may apply at any position and to any part of a longer And or Or", "anchors": ["expreduce/resources/simplify.m: booleanSimplify", "expreduce/resources/boolean.m: Attributes of And, Or, Not", "expreduce/replace.go: flatReplace, replaceAll", "expreduce/builtin_replacement.go: ReplaceRepeated"]}
{"id": "C117", "title": "ReplacePart replaces exactly the addressed parts", "statement": "ReplacePart[e, {p1 -> v1, ...}] is e with the part at each position that a rule gives (a number, or a list of numbers leading down) replaced by the value of the first such rule, outer positions first, and every other head, argument and atom unchanged; with positions given by patterns the values are those of the rules applied to the list of numbers. (False for a pattern variable that stands for the whole position: it becomes an empty list.)", "quantifier": "all expressions, rules and positions", "why_tests_cant": "positions at any depth in expressions of any size", "anchors": ["expreduce/builtin_replacement.go: replaceParts, rulesReplace, ReplacePart", "expreduce/matcher/pdreplace.go: replacePDInternal", "expreduce/resources/replacement.m: ReplacePart"]}
{"id": "C118", "title": "Take, First, Last, Rest, Fold, Nest and Tally do what their names say", "statement": "Take[f[xs], m] with 0 < m <= n is f of the first m elements and Take[f[xs], {a, b}] of the elements a to b; First, Last and Rest give the first element, the last one and the expression without the first, and leave expressions without elements alone; Fold[f, x, h[a1, ..., an]] is the value of f[...f[f[x, a1], a2]..., an]; Nest[f, x, n] is f applied n times; Tally[list] gives each different element once, in the order of first occurrence, with the number of its occurrences. (False: Take with a negative count leaves a Part call; Nest[f, x, n] with n negative or symbolic and Fold over an atom return their last argument; Fold over a sum sorts the partial results; Tally counts elements that match a pattern element, and fills slots in the list.)", "quantifier": "all heads, elements and counts", "why_tests_cant": "lists of every length and elements of every form", "anchors": ["expreduce/resources/list.m: Take, First, Last, Rest, Count, Tally", "expreduce/resources/functional.m: Fold, Nest"]}
{"id": "C119", "title": "x++, x--, ++x, --x, x += e, x -= e, AppendTo and PrependTo update the variable and nothing else", "statement": "For a variable x with an integer value k, x++ returns k and sets x to k+1, x-- returns k and sets x to k-1, ++x and --x return the new value; x += e and x -= e first evaluate e with all its effects, then add (subtract) its value to the value x has then, and return the new value; AppendTo[l, e] and PrependTo[l, e] extend the list l at its end (start) and return the new list. No other symbol changes, nothing is thrown. (False: for machine reals x++ does not return the old value but (x+1)-1 rounded: with x = 2.^-60 it returns 0.)", "quantifier": "all sessions in which these functions are as shipped, all other definitions whatever they are, all variables, all integers, all right-hand sides with arbitrary effects, all lists of steady elements", "why_tests_cant": "The claim is about the whole session before and after, for every session and every effect of e; tests look at a few variables.", "anchors": ["expreduce/resources/arithmetic.m:281-344", "expreduce/resources/list.m:299-325", "expreduce/eval.go:35-260", "expreduce/evalstate.go:328-358,471-599", "expreduce/builtin_system.go:494-501"]}
{"id": "C120", "title": "A For loop runs its body for every value of the counter", "statement": "For[beg, test, incr, body] evaluates beg once and then, as long as the test gives True, the body and after it the increment, and returns Null. For[i = a, i <= b, i++, body] evaluates the body for i = a, ..., b in this order and leaves i at b+1 (a if there is no round); so For[i = 1, i <= n, i++, s = s + i] computes n(n+1)/2 and the product loop n!. (False: bounds of 2^53 or more are not respected; Break[] in the body does not end the loop.)", "quantifier": "all sessions in which these functions are as shipped, all bounds below 2^53, all bodies with arbitrary effects that keep the counter, all invariants", "why_tests_cant": "The number of rounds is unbounded and the body arbitrary; only an invariant argument over all rounds settles it.", "anchors": ["expreduce/resources/flowcontrol.m:109-111", "expreduce/builtin_flowcontrol.go:52-113", "expreduce/builtin_comparison.go:98-119"]}
{"id": "C121", "title": "A user-defined function computes what its definitions say", "statement": "A call f[a, b, ...] of a function with several definitions f[p, q, ...] := body, whose parameters are variables x_ or integers, evaluates its arguments from left to right, takes the first definition in the order of the table whose integers agree with the values, and has the value of its body with the values in the places of the variables; a call that no definition fits stays. Recursion needs no bound: f[0] = 1; f[x_] := x f[x-1] gives n! for all n, entered in either order, and f[x-1] + f[x-2] the Fibonacci numbers. (False for two arguments: of p[x_, 0] := e and p[x_, y_] := e' the general one is tried first in either order, because its printed form is longer; so p[x_, 0] := x; p[x_, y_] := p[x+1, y-1] never returns.)", "quantifier": "all sessions in which Plus and Times are as shipped, all names, all numbers of definitions and parameters, all bodies with arbitrary effects, all argument values, all recursion depths", "why_tests_cant": "Recursion depth and the set of definitions are unbounded; tests run a few calls of a few functions.", "anchors": ["expreduce/eval.go:48-276", "expreduce/evalstate.go:328-358,431-599", "expreduce/matchq.go", "expreduce/pdreplace.go:8-66"]}
{"id": "C122", "title": "Fibonacci remembers its values and stays right", "statement": "Fibonacci[e], for an e that is evaluated to a natural number n, gives the n-th Fibonacci number whatever has been remembered by earlier calls; afterwards n is remembered, so is everything remembered before, all remembered values are right, nothing beyond n is added, and nothing else in the session changes. A remembered value is returned without any change of the session. The definitions of the resource file, made in a new session, remember 0 and 1. (False for negative integers: Fibonacci[-1] asks for -2, -3 and so on and never returns.)", "quantifier": "all natural numbers n, all tables of remembered values left by earlier calls, all argument expressions with that value", "why_tests_cant": "The table of definitions changes during the recursion, so the answer depends on the history of calls; tests make one call in a fresh session.", "anchors": ["expreduce/resources/numbertheory.m:258-261", "expreduce/evalstate.go:431-599", "expreduce/eval.go:48-276", "expreduce/builtin_system.go Set"]}
{"id": "C123", "title": "Programs with variables, If and While do what they mean", "statement": "A program built from integer literals and variables, +, -, *, the tests < and <=, assignment, sequence (;), If[b, s, t] and While[b, s] does what the ordinary meaning of such programs says: if it comes to an end in a store with a value, its evaluation ends with this value, the variables hold the values of that store, and nothing else in the session has changed; if it never comes to an end, neither does its evaluation; unless it reads a variable without value or compares numbers beyond 2^53, the evaluation ends with a result exactly if the program does, and with no other result. For example Euclid's algorithm with If and While leaves the greatest common divisor.", "quantifier": "all programs of the language, all stores and sessions that hold them, all executions, ended or not", "why_tests_cant": "Programs nest to any depth and loop any number of times, so no number of runs settles what all programs do, and no run shows that a program does not end.", "anchors": ["expreduce/builtin_flowcontrol.go:57-130", "expreduce/resources/flowcontrol.m:2", "expreduce/eval.go:48-276", "expreduce/builtin_system.go Set", "expreduce/evalstate.go:431-599"]}
{"id": "C124", "title": "Recursive functions of integers have the values their definitions give", "statement": "Functions defined by the user by cases on their arguments (integer literals and names), in terms of +, -, *, If with < and <=, and calls of themselves and each other, with arguments that may be calls again: if by these definitions an expression has a value, its evaluation ends with this value and no other, without changing the session; if by the definitions it never gets a value, its evaluation never ends (unless a call comes back to literally the same call: f[x_] := f[x] is given back). For example the usual definitions of Ackermann's function, McCarthy's 91 function and a pair of functions telling even from odd numbers compute what they should.", "quantifier": "all programs of this form, all expressions, all depths of recursion, all values of global variables", "why_tests_cant": "Recursion is of unbounded depth and the programs are arbitrary; a test shows a few values of a few programs and cannot show that an evaluation never ends.", "anchors": ["expreduce/eval.go:48-345", "expreduce/evalstate.go:226-300", "expreduce/builtin_flowcontrol.go:57-87", "expreduce/replace.go"]}
{"id": "C125", "title": "Comparing expressions is not confused by what was compared before", "statement": "Identity of expressions (SameQ) is decided by fingerprints that are kept inside the expression objects. Whatever expressions were built, copied, sorted, compared and changed before, the answer for two expressions depends only on what they contain now: objects are changed only while no object containing them has a fingerprint in it, copies take along fingerprints that are right for them, and the evaluation of arguments throws away a fingerprint exactly when an argument has changed. (False for Min: evaluating Min[a,b], with arguments that are no numbers, leaves in the result the fingerprint of the list {a,b}, and Min[a,b] === {a,b} gives True.)", "quantifier": "all sequences of calls of any length on any number of objects sharing parts in any way, all contents", "why_tests_cant": "Whether a stored fingerprint is stale depends on the whole history of the objects; the tests compare freshly parsed expressions.", "anchors": ["expreduce/atoms/ex_expression.go:169-246,304-311", "expreduce/atoms/sameq.go:12-27", "expreduce/matcher/pdreplace.go:8-66", "expreduce/builtin_sort.go:20-24", "expreduce/builtin_comparison.go:18-68", "expreduce/eval.go:140-151,202-205"]}
{"id": "C126", "title": "Total, Mean, AllTrue, ListQ and Boole do what their names say", "statement": "Total of a list of exact numbers is their sum in normal form and Mean of a nonempty one their mean, in normal form, both independent of the order of the elements; with symbolic elements Total has the value of the sum whatever the symbols stand for; Total[{}] is 0 and Mean[{}] Indeterminate. AllTrue[h[e1, ..., en], cond] makes every test once, in order; it gives False if one of them gives False, True if all give True, and otherwise the conjunction of the undecided ones; over an atom it is left alone. ListQ is true exactly of lists; Boole maps True and False to 1 and 0 and leaves the rest alone. (False: Total and Mean accept several lists; Total[{{1, 2}, {3}}, {1}] gives {3, 3}.)", "quantifier": "all lists of exact numbers or symbolic terms, all conditions, all evaluators", "why_tests_cant": "lists of every length and order, conditions with side effects", "anchors": ["expreduce/resources/list.m:10,22,396", "expreduce/resources/boolean.m:75,85-86"]}
{"id": "C127", "title": "Solving by isolation finds exactly the solutions", "statement": "When Solve isolates a variable that occurs once in an equation built from sums, products, reciprocals and powers with exponents 2 to 5, every right side it produces that has a value satisfies the equation over the complex numbers when put in for the variable, and if all the right sides have values there are no other complex solutions, whatever the other symbols stand for; the right sides do not contain the variable. (False for a variable under a root: x^(1/2) = -1 is isolated to x = 1, which the later check has to throw away; for 1/x = 0 isolation gives a right side without a value.)", "quantifier": "all equations of this form at any nesting depth, all complex values of the other symbols", "why_tests_cant": "nesting of any depth, all values of the parameters, and that no solution is missing", "anchors": ["expreduce/resources/solve.m: countVar, applyInverse, isolate"]}
{"id": "C128", "title": "PDF gives the densities of the distributions", "statement": "For every real mean mu, every sigma > 0 and every point x, PDF[NormalDistribution[mu, sigma], x] has as its value the normal density, which is positive, integrates to 1 and has mean mu; PDF[LogNormalDistribution[mu, sigma], x] is the density at x of a variable whose logarithm is normal: 0 for x not positive, and otherwise the normal density at Log[x] divided by x, which again integrates to 1. (Nothing keeps sigma positive: for sigma = -1 the result is negative everywhere.)", "quantifier": "all expressions for mu, sigma and x with real values, sigma positive", "why_tests_cant": "all real values of the parameters; normalisation is an integral over the real line", "anchors": ["expreduce/resources/stats.m: PDF"]}
