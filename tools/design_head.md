# Formal model of the Cforall runtime library and compiler support code

Everything is in `lean/Verif/`:

* `Verif/Model/*.lean` - the model: one definition per function of `/repo`, each with a comment citing file and lines, and the simplifications made.
* `Verif/Proof/*.lean` - helper lemmas and invariants. Nothing here needs to be read to understand what is claimed.
* `Verif/Spec/*.lean` - specifications that are too long to stand at the head of the property file. They do not mention the model.
* `Verif/Props/*.lean` - for each area, a small specification and the property theorems, each next to an `example` showing that a concrete non-trivial case meets its hypotheses. Theorems are named `Cxx_...` after the property in `properties.jsonl`. `_partial` marks a theorem that proves only part of its property; `_violated` marks a proof, by a concrete witness, that the code as written does **not** have the property.

## Trusted base

* Lean 4.33.0's kernel. No axioms are added; theorems depend at most on `propext`, `Classical.choice`, `Quot.sound` (see "Axioms" at the end). No `sorry`, `native_decide`, `bv_decide`, `implemented_by` or `unsafe`.
* The reading of the C/Cforall/C++ source. The code was not executed. Each definition cites the lines it models.
* For concurrent code: sequential consistency at the granularity of the atomic instructions named in the code (all of them use `__ATOMIC_SEQ_CST` or are under a spin lock). Code between `lock(spin)` and `unlock(spin)` is one atomic step, i.e. the internal spin lock is trusted to be a mutual-exclusion lock. `park`/`unpark` are trusted to pair up as proved in C50 (a thread that executed `park` resumes exactly when one matching `unpark` has been executed).
* Termination of spin loops/fairness of the scheduler is not modelled: liveness claims are stated as safety ("whenever a thread sleeps, a wake-up is pending or the lock is held").
* Mathematical integers are used where the code uses a machine integer and the property is not about wrap-around; the definition's comment says so.

## Plan per property

| id | what is modelled, how it is proved |
|----|------------------------------------|
| C01-C04 | `rational.cfa` over `Int`; abstraction to Mathlib `Rat`; algebraic laws. Machine overflow excluded (stated). |
| C05 | By-value parameter modelled as such; the property is false of the code: negation witness. |
| C06, C07 | `BitVec w` for every width `w`; laws proved by arithmetic on `toNat`. |
| C08-C11 | `Int` nanoseconds, C truncating division `Int.tdiv`; structs as pairs; printing as a digit list with a separate decimal-numeral semantics. |
| C12-C14 | `BitVec 64`/`BitVec 32` transition functions; explicit inverses; negation witness for xorshift seeding. |
| C15, C16 | sorting networks by the order-theoretic min/max model over any linear order, insertion sort by induction; binary search by loop invariant. |
| C17-C24 | pointer-level heap models (`Addr -> node` functions), representation predicate to `List Addr`, refinement of every operation. |
| C25-C29 | storage models with constructor/destructor accounting. |
| C30-C33 | byte-buffer heap with handle list; refinement to character sequences; negation witnesses where the code corrupts. |
| C34-C48, C50-C54 | labelled transition systems over an arbitrary number of threads (thread ids are `Nat`), one transition per atomic instruction or spin-locked section; inductive invariants over all reachable states. |
| C49, C57, C58 | as above at the granularity of single compare-and-swap instructions. |
| C55, C56 | pure/list level functions and interleaved mailbox system. |
| C59, C60 | byte-interval writes; decimal parsing with 64-bit saturation. |
| C61 | eight bytes packed in `BitVec 64`/`Nat`. |
| C62-C65 | map/heap models with persistent-version invariant; refinement to functions/lists; loop of filterCombos as a terminating state machine. |
| C66 | expression trees, evaluator and independent C semantics (64-bit). |
| C67 | mangling as a string function on type terms; unique readability by structural induction. |
| C68 | list of classes with sets of variables and first-order bound types. |
| C69-C72 | `math.trait`/`math.hfa` integer functions over `Int`/`Nat` with the width of the C type as a parameter; `tm_year` of `time.cfa`. |
| C73 | `bits/collections.hfa`: stack with link fields and doubly linked list; refinement to lists. |
| C74 | `containers/pair.cfa`, over any two linear orders. |
| C75, C76 | `stdlib.hfa`: `anew`/`adelete`, the typed allocation functions; sizes are 64-bit. |
| C77 | The `for` statement that `forCtrl` (`Parser/parserutility`, `parser.yy`) builds for a range, run on an index of any width. |
| C78 | The monitor model of C53/C54, with `waitfor`. |
| C79 | `actor.hfa`: the counter of actors and `actor_stop`. |
| C80 | The model of C46. |
| C81, C82 | The code `Concurrency/Waituntil.cpp` generates for a `waituntil` statement as a function of its clause tree, executed concurrently with the fulfilment of futures; simulation of the status words and of the predicate. |
| C83 | The scheduler's reader-writer lock as a transition system of any number of kernel threads, one step per access to a shared variable; an inductive invariant over the cells, the writer and the local locks gives exclusion, distinct identifiers and absence of deadlock; witnesses for the access to dead storage and the premature abort. |
| C84 | The memory allocator (`heap.cfa`): per-thread heaps, free lists, remote returns, mapped blocks and the heap manager, as a transition system of any number of threads over a byte memory; one step per section that the code makes atomic. An inductive invariant says that live blocks, free blocks and the reserves partition memory. Witnesses for the wrapped sizes, the missing null checks and the `mallopt` race. |
| C85 | The model of C84 with the contents of memory; a relational specification of what each allocation routine promises. |
| C86 | The model of C84: a measure of the steps a routine has left. |
| C87 | The model of C84: the heaps created at thread start and handed on at thread exit. |
| C88 | `MultiLevelExit.cpp` and `FixLabels.cpp` as a function on statements, with the stack of enclosing control structures, the used labels, the break label to be placed and the double visit of loops with `else`. The meaning of statements is a small-step semantics with continuations (`Spec/MultiExit.lean`), in which `break`, `continue` and `fallthrough` are defined without labels. Proved by a relation between a statement and its translation that the pass establishes, and a simulation in both directions. |
| C89 | `ExceptTranslate.cpp` as a function from statements to statements of the rewritten program, and an interpreter for these with the data of `exception.c`: the list of resumption nodes, the list of exception objects, the exception variables of `catch` clauses and the cleanups; the C compiler's unwinder is modelled by its two phases. The meaning of a program (`Spec/Except.lean`) is an interpreter with the handlers in force as a parameter. Proved by induction on the number of steps: the two agree, and the library's data is restored. |
| C90 | `memory.cfa`, both pointer types, as functions on a heap of pointers (variables and members of objects) and objects; deleting an object is a worklist of destructors and frees, so that the recursion of destructors is a loop with a fuel that is proved to suffice; every access to freed memory is an error | Invariant: the counter of an object is the number of pointers to it, except one that is being changed, and exactly the objects with counter 0 are on the worklist; what can be reached without following the changed pointer is not touched. `unique_ptr` is reduced to `counter_ptr` with counters of at most 1. The failures are witnesses; the wrap-around of the counter is proved by induction on the number of copies |
| C91 | `LayoutFunctionBuilder` and the size, alignment and offset expressions of `PolyGenericCalculator` (`Box.cpp`), instances as C types (`InstantiateGeneric.cpp`); declarations refer to earlier ones, layout functions form a table | The specification is the System V layout rule on C types, in bits. Induction on the table of declarations, then on types: the layout function applied to the layouts of the complete arguments gives the layout of the C type; types without polymorphic arguments do not depend on them. Aligning with `&` is shown to give the least multiple. The failures are witnesses |
| C92 | the check of gotos (`LabelFinder`, `InsertDtors`), blocks around expressions, temporaries and constructor calls of `FixInit.cpp`; execution of the generated C code with gcc's `cleanup` attribute, with gotos, computed gotos, returns and exceptions | The specification lists, from the text alone, the objects in scope at each expression. Invariant over all executions: the open scopes are those of the text at the current place. A scope is determined by its newest variable, so the check at a goto makes the scope of the label the beginning of the current one, and the jump destroys exactly the rest. The failures are witnesses |
| C93 | the idle sleep of processors (`mark_idle`, `search`, `idle_sleep`, `mark_awake`), making ready (`push`, `__wake_one`) and destruction (`__wake_proc`) as an interleaving of atomic steps of any number of processors and callers over any number of lanes | Invariants for the list of idle processors, the wake-up marks and the locks of lanes; then: whenever a lane is not empty, some processor is awake, is still going to look at a lane with a thread, or has a mark it will see, or some caller is on the way to set one. Such a state has a next step. The two failures are witnesses |
| C94 | all member iterators of `CurrentObject.cpp` (simple, array, structure, union, tuple), the stack of current objects and the treatment of expressions, lists and designations in `Resolver.cpp` | The specification is C11 6.7.9 on paths: next subobject, brace elision, designations. The iterator that belongs to a path is defined; creating, stepping and setting the position lead from one such iterator to the next as the specification says; then induction over the initializer. Ten ways to leave the specification are witnesses |
| C95 | `base10_128`, `INTEGRAL_FMT_IMPL` (64-bit), `base_128`, `INTEGRAL_FMT_IMPL128` in `iostream.cfa`, with the separator state of `fstream.cfa` | The specification is a small theory of numerals (digits, value) and of the C layout of an integer field. The bespoke binary printer and the C conversions are shown to print the layout; the chunked 128-bit printer is shown to print the layout of the whole number by splitting numerals and layouts at the chunk boundary, for any chunk size. Where it does not, witnesses. |
| C96 | the output operators of values, strings, characters and tuples and all separator and newline manipulators (`iostream.cfa` 43-377, `fstream.cfa` 46-107) | The specification reads the history of events: what was printed and which requests were made. A relation ties the four flags of the stream to functions of the history and is preserved by every operator. Corollaries for statements and tuples of numbers. Where the flags do not tell the history apart, witnesses. |
| C97 | the tables of basic types (`costMatrix`, `signMatrix`, `commonTypes`), the operators of the prelude, the choice among intrinsic candidates, casts, conditionals, pruning and the final choice of one candidate (`CandidateFinder.cpp`, `Resolver.cpp`), with the packed costs of C61 | Induction over expressions: every sub-expression has exactly one candidate, because the common type is strictly the cheapest version (checked over all pairs of kinds) and a common base cost does not change the order while no byte overflows. The reading is specified by least upper bounds in the order of safe conversions; C's types by a transcription of 6.3.1.1 and 6.3.1.8. Where C and the code differ: witnesses. |
| C98 | `build_constantInteger` with its helpers (`lnthSuffix`, `valueToType`, `scanbin`), on strings, and the removal of underscores by the scanner; the C library's `sscanf` and `std::string` functions it uses are modelled by what their manuals say | Constants are specified as base, digits and suffix, their type by a transcription of C17 6.4.4.1 and their number by a fold over the digits. The string functions are computed on the text of such a constant (lemmas for a last occurrence, scanning a prefix of digits), then a case analysis by base and suffix; 128 bits by splitting the digits at the boundary the code uses and adding the parts. Where C and the code differ: witnesses. |
| C99 | the symbol table (`SymbolTable.cpp`): opening and closing scopes with lazily saved tables, adding types, aggregates, identifiers and the members of `with` clauses, conflicts, look-ups; mangled names, type compatibility and the passes that drive it are parameters | The chain of saved tables is shown to be a stack with one table for each open scope (saving lazily changes nothing); then, by induction over the program, each table agrees with lists of the declarations of the open scopes, which is the specification. Rejections are characterized by the declarations of the innermost scope. Where the code differs: witnesses. |
| C100 | `removeSpecialOverrides` and the part of `addIdToTable` for constructors, destructors and assignments; mangled names, type keys and `isCopyFunction` are parts of a declaration | The specification says, for a set of declarations and without order, which functions can be used. An invariant by induction over the declarations: the user's functions are in the table, a given function is marked deleted or missing exactly when it is withdrawn. Where built-in functions, equal names in nested blocks and early definitions go otherwise: witnesses. |
| C101 | the operators of `gmp.hfa` for `Int`, `long int` and `unsigned long int` operands, with C conversions and traps; the functions of the GMP library are integers and their operations (trusted) | Cases over the operand types; each result is compared with the integers. Where an overload is wrong, the theorem says exactly for which operands it is right, with witnesses. |
| C102 | expansion of member tuples, exploding of tuple expressions into components with unique expressions, the matchers for multiple and mass assignment with the types of their temporaries, and the run of the generated statement expression, its assignments in any order; scalars only, no constructors | Induction over types and expressions: the components, evaluated one after another, are the expression evaluated once. Then induction over the order of the assignments. References on the left, references on the right of a mass assignment and repeated places are refuted by runs. |
| C103 | resume (both forms), prime, suspend, the end of a main, the destructor, cancellation, resumeAt, poll, checked_poll of coroutine.hfa/.cfa, with coroutine_cancelstop; what a coroutine continues with after a switch is a field; mains perform any operations; assertions on; stacks, context switch and unwinder trusted | The specification finds from the history of events alone where control goes. An invariant ties the pointers, states and cancellation field of every coroutine to the history, preserved by each operation. The exceptions need no orderliness: induction over the run. Cancellation of a coroutine whose latest resumer waits elsewhere, clean-up that switches, and a first resume by pointer are refuted by runs. |
| C104 | __alloc, cfa_io_allocate, __submit_only, cfa_io_submit, ioring_syscsll, __release_sqes, __cfa_do_flush, __cfa_do_drain and the arbiter (io.cfa), with u32 counters that wrap and masked indexes; one context, requests of one entry; the kernel as io_uring(7) describes it, taking any part of a submission and completing in any order; assertions off; waking and statistics left out | Each ring represents a list; an invariant says the free entries, those held and those listed are all entries once, and accounts for every request; preserved by each step. The refuted parts (arbiter's test inverted, mark cleared, refusal while draining, two processors releasing) by runs, two of them with an invariant that nothing later helps. |
| C105 | pthread_key_create, pthread_key_delete, pthread_setspecific, pthread_getspecific, pthread_deletespecific_, pthread_create, pthread_join, pthread_tryjoin_np, pthread_exit (pthread.cfa); each function under the key lock one step, the deletion of a thread's data a machine of its own whose steps others may interleave; bodies of destructors are calls of the joining thread | invariant over histories: links of keys are the entries in use, what an ended thread still has is behind the scan; where it is not: who calls destructors, threads never joined, keys deleted during the call, the main thread, tryjoin |
| C106 | the passes of Lvalue.cpp on annotated expressions (all but GeneralizedLvalue, `?[?]`, members, tuples, comma), the typing of & and the lvalue rule of Expr.cpp, a small C over a store of words; the meaning of references is a separate function on the resolved expression | induction on the expression: what the C of an expression, of a chain of & and of an argument stands for, with cancellation lemmas for &* and *&; where it is not: deep references to reference parameters, temporaries of branches not taken, & in the branches of ?:, &*p as a reference, & of &, two levels up, returned references |
| C107 | the reader of parseconfig.cfa over a list of characters (words of `wdi`, `nl`, comments), the growth of the table, the sizes of string blocks, and the loop of `parse_config` for entries with arbitrary parse and validate functions; opening of the file, other formats and the printing of exceptions are left out | files are rendered from lines (Spec/Config.lean) and read back, by induction on the lines; the loop by induction on the pairs with the count of entries seen as invariant; repeated keys, ruled comment lines, missing values, short string blocks and freed strings are violations |
| C108 | the tables parse_args makes, its loop over the answers of getopt_long, check_args, the number and truth-value parsers, and the wrapping of help text; getopt_long and strtoll are modelled from their definitions (POSIX/C11), without abbreviated names; double is left out | command lines are rendered from items (Spec/Args.lean) and run, by induction on the items; numbers by a grammar in the specification, both directions; the wrapping by induction on the text; `h` options, short-only options, `=` arguments, empty ints and terminals of 0 columns are violations |
| C109 | disable_interrupts, enable_interrupts, poll_interrupts, force_yield and the signal handler as steps on one processor, with the regions the handler looks for; the one-shot timer, the alarm list and its tick; a step is one access to the variables of preemption, and the instructions within an access, the kernel's own threads and in_progress are left out | sections are counted in the list of events (Spec/Preempt.lean); an invariant by place, kept by every event; a second invariant says a switch is owed until it takes place; a rank shows that routines return; the timer by an invariant over its histories; the window before enable_interrupts returns, calls that do not poll, more than 65536 sections and the first tick are violations |
| C110 | the expansion of inline enumerations, the C enumeration and the arrays that are generated, the generated routines and those of the prelude on top of them, loops over an enumeration, and the offset of a conversion; base types are integer types, and resolution (which routine a comparison names, which child a cost picks) is taken as intended | values by a recursion in Spec/Enum.lean against the initializers the compiler builds; positions and bounds by induction on the enumerators; loops by induction on what is left, in 32-bit arithmetic; conversions by induction on the way from target to source; enumerators before an inline one, nested first children, inherited values, opaque over typed and += past the end are violations |
| C111 | the constructor, fmt, write and clear of a string output stream on the memory from its buffer on, and fmt of a string input stream; vsnprintf and vsscanf are as C defines them, conversions are those that read within a word and %c; separators are those of C96 | the buffer, cursor and file against a text and a file in Spec/StrStream.lean, by induction on the history; memory past the buffer by the same; reads by induction on the words; other white space, characters, the end of the buffer and the text after a clear are violations |
| C112 | the manipulators for C strings and quoted strings, reading an enumerator with its matrix of labels, nl, and reading a 128-bit integer; scanf is as C defines it, on the list of the characters that are left and the end-of-file flag; a statement is left at an exception, and scan sets have no ] | the result of each read as a function of the text, the array and what follows it (gives in Spec/StrInput.lean), by the two cases of a scan with a width; writes by a bound on what a scan reads; enumerators by an invariant of the two loops: lengths and exact match after each label of a column; digits by induction; getline with a read width, ranges, the end in quote, quoted characters, the newline after an enumerator, prefixes and minus signs are violations |
| C113 | __Cofor__ with its division of the range, and the statement cofor as the compiler expands it: the loop that sends, the flags, and the runners, one step for each access of shared data; removal and insertion are one step since they are done under a lock (C37), and there is at least one processor | ranges by appending intervals; the statement by an invariant of all executions: what a runner has run, runs and has waiting is its share of what was sent, and a runner is past the loop only if its flag is set and its list empty; the end by counting the steps that a runner still needs; bounds whose difference overflows are a violation |
| C114 | The lock state, both queues and where each thread is (Model/OldLocks.lean), one step per critical section, for the mutex with a condition lock, and the recursive mutex. | Invariants over all schedules: queues are the sleeping threads in order of arrival, and the flag says whether somebody holds the lock. `wait` on a recursive lock that is locked twice is refuted. |
| C115 | the loop that counts the sequences of a literal, the joining of adjacent literals with their encodings, the separation of units, and the pass that sets the dimension; an item of a list is reduced to its array designator | induction over the characters of each literal as C writes them (longest match) and over the literals; encodings, universal character names, designators and lists without inner braces are violations |
| C116 | the value kept with a character constant, and EnumDecl::valueOf with its map and the evaluation of initializers that calls it again, up to a bound on the depth of calls | soundness by an invariant of the loop (what is in the map is the value in C) and induction over the depth; answers by induction over the members; escape sequences and the endless recursion, which is proved for every depth, are violations |
| C117 | `RangeIter` with the `%u%n-%u%n` of the C library, `read_width`, `count_cpus` on the text of the file, the indices of `build_raw_cache_table` | induction over the items of the list, the bound of the table by counting; violated for the empty list, for lines of 128 characters and more, and for lists with a gap |
| C118 | `distinct_llcs`, `get_cpu_pairings`, any result of the sort, the loop that sets the starts and the one that fills the entries, on a system whose processors are 0 to n-1; the widths are those of the model of C117 | invariants of the two loops over the sorted pairings, and counting; violated for lists that are cut at 31 characters |

## How concurrent code is modelled

`Model/Trans.lean` defines `Reach next s0 s`: `s` is reached from `s0` by steps of the partial function `next : State -> Action -> Option State`. An action names the thread that makes the step; any thread may make the next step, so `Reach` covers every schedule, with no bound on threads, steps or nesting. Theorems are about all `s` with `Reach next start s`. A blocked thread has no enabled action. Claims of progress are of the form "if nothing can move, then nobody waits" or "a step of this thread is enabled"; they do not need fairness, and do not claim more.

What is atomic: one atomic instruction of the code, or a section that is protected by an internal spin lock, together with the code of the same thread around it that touches no shared data. Memory is sequentially consistent. Weak-memory effects of the `__ATOMIC_RELAXED` accesses are outside of the model; where the code uses them, the comment of the definition says so.

## Properties that are false of the code

A theorem with the suffix `_violated` proves, about the model of the code as it is, the negation of a part of the property - by a reachable state or a concrete argument, or in general form. The `_partial` theorems beside it state what remains true, with the full statement of the property kept in `properties.jsonl`. The notes in `MANIFEST.json` say in words what is false. These are claims about the model; the code was not executed.
