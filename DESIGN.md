# Design: a Lean 4 model of swc-plugin-coverage-instrument

`/repo` is a Rust workspace: `istanbul-oxide` (coverage data model: merge, summaries),
`swc-coverage-instrument` (the SWC visitor that injects counters) and `swc-plugin-coverage`
(plugin entry point). It was read as text and never built or run.

Abbreviations: IO = packages/istanbul-oxide/src, CI = packages/swc-coverage-instrument/src,
PL = packages/swc-plugin-coverage/src.

## Layers of the model (lean/Verif/)

| Layer | Lean modules | Code |
|---|---|---|
| A data | `IndexMap`, `Types`, `FileCoverage`, `Summary`, `CoverageMap`, `Percent` | IO |
| B registry | `SourceCoverage` | CI/source_coverage/mod.rs |
| C hints | `Hint` (regex matcher on character lists, comment lookup) | CI/utils/hint_comments.rs |
| D syntax | `Ast` (rose tree of SWC nodes), `Counter` (injected expressions) | swc_ecma_ast as used, CI/instrument |
| E visitor | `Visitor` (the four visitors and their shared macros), `Program` (module/script entry points) | CI/macros, CI/visitors |
| F template | `Template` (object literal, coverage function, counters), `Js` (evaluator for the fragment of JavaScript they are written in), `Emit`, `SipHash` | CI/coverage_template, CI/instrument |
| G text | `Json` (serde_json printer and parser), `Serde` (derived serialisers of the data) | IO derives, serde_json |
| H plugin | `Plugin` (options, exclude decision, process-global state) | PL/lib.rs |
| K native transform | `Custom` (`transform_sync`: options, file name, caught panics) | spec/swc-coverage-custom-transform |
| L interface | `Interop` (reports as JavaScript values) | spec/swc-coverage-instrument-wasm, spec/util/verifier.ts |
| J reader | `Reader` (reads coverage data off program texts) | spec/util/read-coverage.ts |
| I semantics | `Spec/Sem` (execution as a dialogue between program text and an arbitrary environment) | specification side only |

Property theorems live in `Verif/Props/*.lean`, specifications in `Verif/Spec/*.lean`,
helper lemmas beside the model files or in `Verif/Lemmas/*.lean`. Every definition of the model cites file and lines.

### Modelling decisions

* **IndexMap** is an association list in insertion order. `insert` replaces in place or appends,
  `swap_remove` moves the last entry into the hole. Keys being distinct is an
  invariant that is proved, not assumed.
* **u32** is `Nat`. Counters that overflow are treated in a separate statement (C04) with
  an explicit 32-bit wrap-around addition; `CoverageMap.fromIterRelease` is `from_iter` with it, and `Merged` (C50, C51, C53,
  C54) speaks of both. Debug builds, where an overflow panics, are in `Model/Debug` (C60).
* **Panics** (`expect`, indexing, `unimplemented!`) are explicit error values: `Except Panic` in layers A, B, E.
  No totalised lookups hide them.
* **f32** is modelled by an exact rational followed by an explicit round-to-nearest-even function on 24-bit
  significands (layer `Percent`).
* **AST**: one rose tree `Node = (kind, span, children)`; children are listed in SWC field order, which is the order of the
  default traversal `visit_mut_children_with`. SWC's enum wrappers (`Expr`, `Stmt`, `Decl`, `Box`) are elided: visiting the
  children of a wrapper is visiting the node. All node kinds that the visitors treat specially have their own kind with
  their fields as children; every other node kind (member, call, array, object, unary, JSX, ...) is `other` with its name,
  its syntactic category and its children, which the code only ever traverses by default.
* **Visitor** is a state-passing function with fuel (the code re-visits rewritten subtrees, so recursion is not structural).
  Theorems are for every fuel for which a result exists; a separate theorem (C36) shows that enough fuel always exists.
* **Comments / source map** are arbitrary functions (position to comment list, position to line/column).
* `tracing`, logging and TypeScript type nodes are not modelled. The visitors never look at types (`noop_visit_mut_type!`).

## Properties: what is modelled and how it is proved

| Id | Model | Method |
|---|---|---|
| C01 | FileCoverage.merge | refinement to a location→count function (spec: sum), induction over entry lists |
| C02 | merge folded over lists | corollary of C01 plus commutativity of finite sums; permutation induction; witnesses for reports that list a location twice or have truthiness counts with gaps |
| C03 | merge | invariant: ids = 0..n-1, no error value unless the truthiness ids have gaps (witnesses) |
| C04 | merge on duplicate locations, 32-bit addition | partial (no duplicates in left report, no overflow) + refutations with witnesses |
| C05 | merge of bT | refutation (witness) + partial for reports whose branches are all logical and densely numbered |
| C06 | merge, `all` cases | direct, whole reports |
| C07 | key_from_loc on real strings | injectivity of decimal printing and separator argument |
| C08 | get_line_coverage | fold invariant; spec as supremum over a filter |
| C09 | to_summary | counting specs; monotonicity |
| C10 | get_coverage_summary | induction over files; permutation |
| C11 | percent with f32 rounding | rational arithmetic, rounding lemmas |
| C12 | CoverageMap operations | invariant by induction over operation sequences |
| C13 | reset_hits | direct, plus use of C01; witnesses |
| C14 | get_branch_coverage_by_line | fold invariant, sum over lines; f32 rounding lemmas for the share |
| C15 | SourceCoverage init/step | invariant over operation sequences |
| C16 | freeze | invariant + list lemmas on retain / swap_remove; order refutation for the count table |
| C17 | Visitor | invariant over the visitor by induction on fuel; refutation for truthiness counters of default arguments; these are exactly the dangling ones, and what evaluating one does at run time |
| C18 | Visitor | same induction, multiset of counter sites |
| C19 | Visitor | same induction with the multiset of registered ids; refutation (switch head), partial; for all programs the counters lost are traced to the switch heads (Spec/Lost, Lemmas/Lost) |
| C20 | Visitor + erase/normalise spec | induction on fuel |
| C21 | Sem + erase | simulation between a program with counters and its erasure, composed with C20 |
| C22 | Sem with event traces | see below; refutation (initialiser counted although not reached) + partial for parts that are unique by kind and position |
| C23 | Visitor in state Next | induction on fuel: identity on node and coverage; refutation for `export const`, function bodies and operands of logical expressions; exact effect there (`Spec/Operand`, C24 and C26 likewise) |
| C24 | Visitor, if statement | from the definition plus C23-style frame lemma; refutation inside operands of logical expressions |
| C25 | Program, Plugin | decision logic |
| C26 | Visitor, methods | frame lemma; refutation inside operands of logical expressions |
| C27 | Hint | equivalence of matcher and declarative pattern |
| C28 | Program, `Spec/Lost` | refutations (module, script, function) + partial for modules with one directive; no directive is ever added, and functions lose all of theirs, for all programs |
| C29 | cover_statement, `Spec/Lost` | invariant for declarators; refutation for class fields; no name is ever added, and which fields lose theirs |
| C30 | Js, Template | refinement: every history of loads and hits played by the evaluator stays in step with an abstract table of counts (`Spec/Runtime`) |
| C31 | Template, Js | decode ∘ evaluate ∘ encode = id; refutations for branches without arms and for names that need escaping |
| C32 | Plugin (process-global cell) | refutation by history + partial between processes; shared-scope witness run in Js |
| C33 | Js, Template | evaluation lemmas on top of the C30 invariant |
| C34 | Visitor | accounting (`Spec/Duty`, `Lemmas/Costs`, `Lemmas/Meters`): what a visit may register is paid for by constructs of the source; refutation (tagged template) + partial |
| C35 | Visitor | induction on fuel: registered ranges come from spans |
| C36 | Visitor | well-founded measure; panic analysis |
| C37 | Visitor | specification of counted statements; refutation (hoisted initialiser inside function) + partial |
| C38 | Visitor | refutation (string-keyed method, constructor) + partial |
| C39 | Visitor | refutation (nested operands, defaults of arrow parameters) + partial |
| C40 | Visitor | induction on fuel: names of registered functions come from the head of the visited construct |
| C41 | Json, Serde | parser ∘ printer = id by mutual induction on trees; readers ∘ writers = id table by table |
| C42 | Emit, SipHash | injectivity of the hashed text (C41); C30 for the effect at run time |
| C43 | Js, Serde, `Spec/Stringify` | `JSON.stringify` as a relation on heaps; what is written for a data object is the emitted tree with integer keys first (`Lemmas/Leaves`), read by the readers of C41; witnesses for overflow and cyclic leftovers |
| C44 | Plugin | the result is a function of file, comments, name and options; refutation for the log set-up |
| C45 | all | composition of C21, C22, C30, C33, C43: what is loaded at the end counts executions of the source |
| C46 | Plugin, Serde, `Spec/Options` | members read by name; the options are the arguments of the instrumentation |
| C47 | Plugin, Json, `Spec/Comment` | a two-state scanner for the end of a comment over the printed JSON; witness with a source map |
| C48 | Visitor | lockstep (`Spec/Akin`, `Lemmas/Lockstep*`): the visits without and with reportLogic, related by a simulation; where they part, witnesses |
| C49 | Visitor, Hint | the same simulation for two programs of the same form; comments via C27 |
| C50 | Visitor, Template, Js, Serde, Merge, CoverageMap | composition: C45 for each run, then induction over the merges with the invariant `Counted` (`Lemmas/Recount`, `Lemmas/Runs`) |
| C51 | the same, and Summary | `Counted.sums`: a report that recounts another one has the totals of the other one |
| C52 | Visitor | the simulation of C49 for one program and two source maps |
| C53 | as C51 | `Counted.lines`, from C08 and C14 |
| C54 | as C50, with truthiness counts | `Truthful` (a `Counted` report whose truthiness ids are 0, 1, …) is kept by merges; violated if other branches precede logical expressions |
| C55 | Reader, Template, `Spec/Reader` | the search for the marker by induction on programs; the literal template by template as in C31; witnesses for unknown texts and second markers |
| C56 | Visitor, `Spec/Size` | the entries by the accounts of C34, the program by a potential that decreases with each rewriting step; exponential growth by induction on the depth of nesting |
| C57 | SourceCoverage, Visitor, `Spec/Serde`, `Spec/Size` | ids by an account as for C56, numbers of the tables by the history of registrations; the failure from the exponential growth of C56 |
| C58 | `Model/Custom`, Plugin, Json | the parser accepts at any larger depth what it accepts at one; creating the names twice is creating them once; witnesses by evaluation |
| C59 | Json, Serde, Plugin; spec `Grammar`, `Layout` | completeness by induction on derivations of the grammar, soundness by induction on the fuel of the parser, for values, elements and members together; each derived reader agrees with a relation |
| C60 | Debug; spec `Debug` | each loop of the debug build comes to an end iff that of exact arithmetic does with small counts only, by induction, for any addition that checks; composed with C50 |
| C61 | Namespace; `Spec/Runtime` | a logic of pairs of computations that agree on trees without namespaces (`Same`); the books of C30 computed for two functions of one file; freezing twice is freezing once, for a namespace before items that register nothing; witnesses |
| C62 | `Spec/Extends` | a logic of computations that leave the branches below a bound alone (`Over`), and the history of registrations of the first items as a prefix of the whole history |
| C63 | `Spec/Slide` | a lockstep of the visit of the second part with and without the first registered before (`Slide.Sim`), and a logic of computations that leave the node stack as it was (`Steady`); refutations for modules and scripts |
| C64 | `Spec/Interop` | entries of `Map`s, the canonical spelling of keys, `C45` for running programs; refutation for source maps with missing contents |
| C65 | `Spec/Veil` | pairs of trees that are the same except inside hinted constructs; from the same state both visits lead to the same state, with results that are again such a pair (`Lemmas/VeilVisit`); refutations in operands and initialisers |
| C66 | `Spec/Veil` (`Thin`, `Items`) | the simulation of C65 on pairs of statement lists of which one has further ignored statements; refutations for `export const` and in operands |
| C67 | `Spec/Dense` (`Ctx.Armed`), `FileCoverage.Dense` | which branches have no arms is followed through all visits (`Feeds`): every visit gives arms to the branches it registers and to the branch of its mode; refutations for empty switches and ignored default values; exactly when there are gaps, and when merging aborts (C54), is read off the outline (`Spec/Listed`, `Props/Listed`) |
| C68 | `Spec/Order` (`NeverAhead`, `InStep`) | positions of counters in lists (`lists_both`, `two_before`, `head_before`) and a run through lists in which one counter comes before the other (`Trails`, `Joined`) |
| C69 | `Spec/Sequence` (`InOrder`, `AsWritten`, `Orderly`) | every visit makes its entries at places that follow the places of the tree it visits (`Reg`, `Follows`) |
| C70 | `Spec/Inside` (`Within`, `Apart`, `Region`, `Nested`, `Laminar`) | every visit keeps the arms in their branches and gives back a tree whose nodes lie in their parents (`Keeps`, `Likes`); the rest follows from C35 |
| C71 | `Spec/ArmsOf` (`choices`, `branch?`, `Branch.Of`) | every visit adds a known list of arms to the branch of its mode and only finished branches of constructs of the source (`Exact.Grown`); inside operands by `Operand.Adds` |
| C72 | `Spec/Outline` (`own`, `looks`, `outline`, `programOutline`) | every visit appends the entries of the outline of its construct to the report and adds a known list of arms to the branch of its mode (`Outline.Goes`); rewriting a statement in place keeps its outline (`Outline.Same`); statements up to those that are not sure (`Picks`) |
| C73 | `Spec/Stricter` (`Ctx.Stricter`, `Fewer`) | the outline of C72 for a context that excludes more is, part by part, a sublist of the other one with sublists of arms; places in the outline are numbers in the report; witness |
| C74 | `Props/Reorder` (`Node.Reordered`, `Inverse`) | the outline of C72 is put together item by item, so that it is reordered with them; a permutation of lists is a bijection of places; witness |
| C75 | `Spec/Braces` (`brace`, `StmtsInBlocks`, `Ctx.Bare`) | by induction over the tree the outline of C72 of a construct is the same with braces put around some of the bodies and the statements of blocks in it, whichever way it is looked at; refutation for initialisers that are arrow functions |
| C76 | `Spec/Thin` (`Kind.traceless`, `thin`, `ListsInBlocks`) | by induction over the tree statements made of such kinds have an empty outline, and leaving them out of lists changes the outline of C72 of no construct |
| C77 | `Spec/Wrapper` (`wrapper`, `IsScript`, `Ctx.HintsApply`) | how the parts of a construct are looked at depends uniformly on how it is looked at (`looks_uniform`), so that by induction the outline of C72 is the same at the top of a script and in a block; refutations for hints before an enumeration and for initialisers that are arrow functions |
| C78 | `Spec/Wrapper` (`IsScript`, `Ctx.HintsApply`, `StringsDirect`) | the outline of C72 of each item as one of a module and as one of a script; refutations for strings as statements and for initialisers that are arrow functions |
| C79 | `Spec/Alike` (`Alike`, `rewrite`, `emptyArm`) | a congruence: constructs that look alike from outside and have the same entries can be exchanged at any depth (`alike_mk`, `alike_rewrite`); the outline of C72 |
| C80 | `Spec/Exchange` (`Plain`, `Exchange`), `Spec/Alike` (`rewrite`) | exchanged expressions are alike (`alike_exchange`); the congruence of C79 and the outline of C72; refutation for strings |
| C81 | `Spec/Exchange` (`Variant`, `SparesExports`), `Spec/Alike` (`Kind.blur`) | the words are not looked at by the outline (`blur_outline`); the congruence of C79 and the outline of C72 |
| C82 | `Spec/Core` (`core`, `Regroup`), `Spec/Alike` | what goes through uncounted expressions is determined by their `core` (`core_flat`, `core_iff`); the congruence of C79 and the outline of C72; for C73 to C82 `Spec/Unsure` (`NearStatements`) says what is left if initialisers are unsure |
| C83 | `Spec/Rephrase` (`Change1`, `Rephrased`) | induction on the sequence of changes; each leaves the outline of C72 as it is |

### Methods of the visitor proofs

* `Lemmas/Steps`: everything a visit does is a sequence of elementary steps (insert a counter, wrap an expression, make a body a
  block, register an entry). `Lemmas/Does`, `Lemmas/Sound`, `Lemmas/SoundProgram` show it for every visit; `StepsInv`,
  `StepsFrom`, `StepsCount`, `Each`, `Faithful` derive invariants from it.
* `Lemmas/Fuel`, `Lemmas/Halts`: termination by a weight that re-visits of rewritten subtrees decrease.
* `Lemmas/Ignored`: in the state `Next` every visit is the identity.
* `Lemmas/Arms`: the effect of visits on the branch table.
* `Lemmas/Sem`: two programs that are equal up to counters, and faithful to directives and names, simulate each other.

* `Lemmas/Gets`, `Lemmas/Covers*`: what must be there. A triple for computations outside of ignored code; by induction on fuel a
  visit leaves the counters of everything reached (`Spec/Reached`) in its result.

* C22: `Lemmas/Follow*`. A weight on nodes says how often a counter occurs in what the environment can reach from a node, and how
  often a tag. `FollowRun` shows by induction on executions that the number of increments and the number of events
  differ by what is still owed at a cut. `FollowSteps` and `FollowTree` show by induction on the steps of a visit that the only place of a
  counter is in front of, around or at the start of the part it belongs to. `FollowTruth` does the same for truthiness counters:
  answers of the environment are matched with presentations as brackets.

* C45: `Lemmas/EndToEnd`. Hits matter only by number, keep the tables, and cannot outnumber the events of an execution; so a life
  of a realm can be built for any executions, and C43 and C22 are composed.
* C45 in the realm: `Spec/Joint` puts the dialogue of `Spec/Sem` into a life of a realm: `Performs` has the rules of `Run`, and where `Run`
  has an increment it evaluates the emitted code. `Lemmas/Joint`: what is performed is an execution and a part of the life, and the instance hits exactly
  the counters of the execution. `Lemmas/Perform`: conversely every execution can be performed; the operand of a truthiness wrapper is the
  sequence of the coverage code that was evaluated in it, with a boolean at the end. That needs `Lemmas/Trim`: the code that tests
  a temporary is not instrumented itself. Initialisers that are tagged templates are visited twice, so they are excluded there.

### What `Spec/Sem` assumes

The environment decides everything that instrumentation does not touch and is not constrained. The relation itself says:
statement lists run in order; a counter is one increment and nothing else; `(counter, e)` is the increment, then `e`;
a body that is not a block is the block of it; a missing `else` is an empty block; `=> e` is `=> { return e }`. Not
modelled: completion values of scripts (what `eval` would give), references (`(c, o.m)()` would lose `this`, but no wrapped position is a
callee), and looking at a value in the truthiness wrapper is assumed to run no program code (proxies and accessors could).

### What `Model/Js` assumes

Numbers are natural numbers up to 2^53 and one NaN; own properties are listed in order of creation (JavaScript lists integer keys
first; nothing here depends on the order except what text JSON.stringify gives); no setters, symbols or frozen objects; user code is a
parameter (`World`) of which hypotheses are stated where it can run. Files are modules: each has its own scope, except in the witness of C32.

### Lives of a realm

`Spec/Life` (`Lives`) says what can happen in a realm besides coverage events: between loads, hits and wrappers the program may create
and change objects and scopes as it likes, except those the coverage code made, the coverage functions, the coverage variable, and what
`Object.prototype` must be. `Lemmas/Life` shows that the invariant of C30 survives (`Kept`). C30, C33 and C43 are stated for lives; the
theorems for bare histories of events are the special case without user code.

### What `Spec/Stringify` assumes

`JSON.stringify` without replacer and indentation (ECMA-262 25.5.2), as a relation, so that user code (`toJSON`, getters, proxies)
may write anything. Such code is assumed not to change what is being written. The text of a written tree is that of
`Json.text`; lone surrogates and numbers of 10^21 and more, which are printed differently, do not occur in coverage data.

## Trusted base

* Lean 4.33.0 kernel; Mathlib where imported. Axioms: at most `propext`, `Classical.choice`, `Quot.sound`
  (listed per theorem in `MANIFEST.json` notes when the set differs from this).
* The hand translation from Rust to Lean. It is checked against known answers in the repository's own tests
  where these exist (hash values, expected instrumentation counts of fixtures) by evaluated examples. Those are tests.
* External code is represented by its documented behaviour: `indexmap`, `regex` (for the two fixed patterns),
  default traversal order of `swc_ecma_visit`, `directive_continue` (string-literal expression statement),
  `serde` derives and `serde_json` (modelled in `Serde`, `Json`), `DefaultHasher` = SipHash-1-3 with zero keys, `std::fmt` of integers,
  `wax` globs and `typed-path` as parameters, the class `Visitor` of @swc/core (visits all children from left to right).
* Assumptions about input trees: fields in SWC order; a program contains no counters before instrumentation (`Clean`);
  TypeScript namespaces do not occur (`Model/Namespace` has them: C61 shows that without them it is the same, and that with them counts are lost).
* Where the model of `serde_json` is simpler than `serde_json`: a struct may also be given as an array of its fields; an integer key
  of a table must not be written with escapes; inside of a member that no field wants, nesting is not limited and lone surrogates
  are let through. (C41, C42, C46, C58, C59.)
* `FileName::Anon` is displayed as `<anon>` (swc_common), for C58.
* Not modelled: parsing, code generation, source maps (beyond position lookup), `tracing`, globbing engine (a parameter),
  TypeScript-only nodes' types, `typed-path` (a parameter).
