# Formal model of the Cforall runtime library and compiler support code

Everything is in `lean/Verif/`:

* `Verif/Model/*.lean` - the model: one definition per function of `/repo`, each with a comment citing file and lines, and the simplifications made.
* `Verif/Proof/*.lean` - helper lemmas and invariants. Nothing here needs to be read to understand what is claimed.
* `Verif/Spec/*.lean` - specifications that are too long to stand at the head of the property file. They do not mention the model.
* `Verif/Props/*.lean` - for each area, a small specification and the property theorems, each next to an `example` showing that a concrete non-trivial case meets its hypotheses. Theorems are named `Cxx_...` after the property in `properties.jsonl`. `_partial` marks a theorem that proves only part of its property; `_violated` marks a proof, by a concrete witness, that the code as written does **not** have the property.

## Trusted base

* Lean 4.33.0's kernel. No axioms are added; theorems depend at most on `propext`, `Classical.choice`, `Quot.sound` (see "Axioms" at the end). No `sorry`, `native_decide`, `bv_decide`, `implemented_by` or `unsafe`.
* The reading of the C/Cforall/C++ source. The code was not executed. Each definition cites the lines it models.
* For concurrent code: sequential consistency at the granularity of the atomic instructions named in the code (all of them use `__ATOMIC_SEQ_CST` or are under a spin lock). Code between `lock(spin)` and `unlock(spin)` is one atomic step, i.e. the internal spin lock is trusted to be a mutual-exclusion lock. `park`/`unpark` are trusted to pair up as proved in C50 (a thread that executed `park` resumes exactly when one matching `unpark` has been executed).
* Termination of spin loops/fairness of the scheduler is not modelled: liveness claims are stated as safety ("whenever a thread sleeps, a wake-up is pending or the lock is held").
* Mathematical integers are used where the code uses a machine integer and the property is not about wrap-around; the definition's comment says so.

## Plan per property

| id | what is modelled, how it is proved |
|----|------------------------------------|
| C01-C04 | `rational.cfa` over `Int`; abstraction to Mathlib `Rat`; algebraic laws. Machine overflow excluded (stated). |
| C05 | By-value parameter modelled as such; the property is false of the code: negation witness. |
| C06, C07 | `BitVec w` for every width `w`; laws proved by arithmetic on `toNat`. |
| C08-C11 | `Int` nanoseconds, C truncating division `Int.tdiv`; structs as pairs; printing as a digit list with a separate decimal-numeral semantics. |
| C12-C14 | `BitVec 64`/`BitVec 32` transition functions; explicit inverses; negation witness for xorshift seeding. |
| C15, C16 | sorting networks by the order-theoretic min/max model over any linear order, insertion sort by induction; binary search by loop invariant. |
| C17-C24 | pointer-level heap models (`Addr -> node` functions), representation predicate to `List Addr`, refinement of every operation. |
| C25-C29 | storage models with constructor/destructor accounting. |
| C30-C33 | byte-buffer heap with handle list; refinement to character sequences; negation witnesses where the code corrupts. |
| C34-C48, C50-C54 | labelled transition systems over an arbitrary number of threads (thread ids are `Nat`), one transition per atomic instruction or spin-locked section; inductive invariants over all reachable states. |
| C49, C57, C58 | as above at the granularity of single compare-and-swap instructions. |
| C55, C56 | pure/list level functions and interleaved mailbox system. |
| C59, C60 | byte-interval writes; decimal parsing with 64-bit saturation. |
| C61 | eight bytes packed in `BitVec 64`/`Nat`. |
| C62-C65 | map/heap models with persistent-version invariant; refinement to functions/lists; loop of filterCombos as a terminating state machine. |
| C66 | expression trees, evaluator and independent C semantics (64-bit). |
| C67 | mangling as a string function on type terms; unique readability by structural induction. |
| C68 | list of classes with sets of variables and first-order bound types. |
| C69-C72 | `math.trait`/`math.hfa` integer functions over `Int`/`Nat` with the width of the C type as a parameter; `tm_year` of `time.cfa`. |
| C73 | `bits/collections.hfa`: stack with link fields and doubly linked list; refinement to lists. |
| C74 | `containers/pair.cfa`, over any two linear orders. |
| C75, C76 | `stdlib.hfa`: `anew`/`adelete`, the typed allocation functions; sizes are 64-bit. |
| C77 | The `for` statement that `forCtrl` (`Parser/parserutility`, `parser.yy`) builds for a range, run on an index of any width. |
| C78 | The monitor model of C53/C54, with `waitfor`. |
| C79 | `actor.hfa`: the counter of actors and `actor_stop`. |
| C80 | The model of C46. |
| C81, C82 | The code `Concurrency/Waituntil.cpp` generates for a `waituntil` statement as a function of its clause tree, executed concurrently with the fulfilment of futures; simulation of the status words and of the predicate. |
| C83 | The scheduler's reader-writer lock as a transition system of any number of kernel threads, one step per access to a shared variable; an inductive invariant over the cells, the writer and the local locks gives exclusion, distinct identifiers and absence of deadlock; witnesses for the access to dead storage and the premature abort. |
| C84 | The memory allocator (`heap.cfa`): per-thread heaps, free lists, remote returns, mapped blocks and the heap manager, as a transition system of any number of threads over a byte memory; one step per section that the code makes atomic. An inductive invariant says that live blocks, free blocks and the reserves partition memory. Witnesses for the wrapped sizes, the missing null checks and the `mallopt` race. |
| C85 | The model of C84 with the contents of memory; a relational specification of what each allocation routine promises. |
| C86 | The model of C84: a measure of the steps a routine has left. |
| C87 | The model of C84: the heaps created at thread start and handed on at thread exit. |
| C88 | `MultiLevelExit.cpp` and `FixLabels.cpp` as a function on statements, with the stack of enclosing control structures, the used labels, the break label to be placed and the double visit of loops with `else`. The meaning of statements is a small-step semantics with continuations (`Spec/MultiExit.lean`), in which `break`, `continue` and `fallthrough` are defined without labels. Proved by a relation between a statement and its translation that the pass establishes, and a simulation in both directions. |
| C89 | `ExceptTranslate.cpp` as a function from statements to statements of the rewritten program, and an interpreter for these with the data of `exception.c`: the list of resumption nodes, the list of exception objects, the exception variables of `catch` clauses and the cleanups; the C compiler's unwinder is modelled by its two phases. The meaning of a program (`Spec/Except.lean`) is an interpreter with the handlers in force as a parameter. Proved by induction on the number of steps: the two agree, and the library's data is restored. |
| C90 | `memory.cfa`, both pointer types, as functions on a heap of pointers (variables and members of objects) and objects; deleting an object is a worklist of destructors and frees, so that the recursion of destructors is a loop with a fuel that is proved to suffice; every access to freed memory is an error | Invariant: the counter of an object is the number of pointers to it, except one that is being changed, and exactly the objects with counter 0 are on the worklist; what can be reached without following the changed pointer is not touched. `unique_ptr` is reduced to `counter_ptr` with counters of at most 1. The failures are witnesses; the wrap-around of the counter is proved by induction on the number of copies |
| C91 | `LayoutFunctionBuilder` and the size, alignment and offset expressions of `PolyGenericCalculator` (`Box.cpp`), instances as C types (`InstantiateGeneric.cpp`); declarations refer to earlier ones, layout functions form a table | The specification is the System V layout rule on C types, in bits. Induction on the table of declarations, then on types: the layout function applied to the layouts of the complete arguments gives the layout of the C type; types without polymorphic arguments do not depend on them. Aligning with `&` is shown to give the least multiple. The failures are witnesses |
| C92 | the check of gotos (`LabelFinder`, `InsertDtors`), blocks around expressions, temporaries and constructor calls of `FixInit.cpp`; execution of the generated C code with gcc's `cleanup` attribute, with gotos, computed gotos, returns and exceptions | The specification lists, from the text alone, the objects in scope at each expression. Invariant over all executions: the open scopes are those of the text at the current place. A scope is determined by its newest variable, so the check at a goto makes the scope of the label the beginning of the current one, and the jump destroys exactly the rest. The failures are witnesses |
| C93 | the idle sleep of processors (`mark_idle`, `search`, `idle_sleep`, `mark_awake`), making ready (`push`, `__wake_one`) and destruction (`__wake_proc`) as an interleaving of atomic steps of any number of processors and callers over any number of lanes | Invariants for the list of idle processors, the wake-up marks and the locks of lanes; then: whenever a lane is not empty, some processor is awake, is still going to look at a lane with a thread, or has a mark it will see, or some caller is on the way to set one. Such a state has a next step. The two failures are witnesses |
| C94 | all member iterators of `CurrentObject.cpp` (simple, array, structure, union, tuple), the stack of current objects and the treatment of expressions, lists and designations in `Resolver.cpp` | The specification is C11 6.7.9 on paths: next subobject, brace elision, designations. The iterator that belongs to a path is defined; creating, stepping and setting the position lead from one such iterator to the next as the specification says; then induction over the initializer. Ten ways to leave the specification are witnesses |
| C95 | `base10_128`, `INTEGRAL_FMT_IMPL` (64-bit), `base_128`, `INTEGRAL_FMT_IMPL128` in `iostream.cfa`, with the separator state of `fstream.cfa` | The specification is a small theory of numerals (digits, value) and of the C layout of an integer field. The bespoke binary printer and the C conversions are shown to print the layout; the chunked 128-bit printer is shown to print the layout of the whole number by splitting numerals and layouts at the chunk boundary, for any chunk size. Where it does not, witnesses. |
| C96 | the output operators of values, strings, characters and tuples and all separator and newline manipulators (`iostream.cfa` 43-377, `fstream.cfa` 46-107) | The specification reads the history of events: what was printed and which requests were made. A relation ties the four flags of the stream to functions of the history and is preserved by every operator. Corollaries for statements and tuples of numbers. Where the flags do not tell the history apart, witnesses. |
| C97 | the tables of basic types (`costMatrix`, `signMatrix`, `commonTypes`), the operators of the prelude, the choice among intrinsic candidates, casts, conditionals, pruning and the final choice of one candidate (`CandidateFinder.cpp`, `Resolver.cpp`), with the packed costs of C61 | Induction over expressions: every sub-expression has exactly one candidate, because the common type is strictly the cheapest version (checked over all pairs of kinds) and a common base cost does not change the order while no byte overflows. The reading is specified by least upper bounds in the order of safe conversions; C's types by a transcription of 6.3.1.1 and 6.3.1.8. Where C and the code differ: witnesses. |
| C98 | `build_constantInteger` with its helpers (`lnthSuffix`, `valueToType`, `scanbin`), on strings, and the removal of underscores by the scanner; the C library's `sscanf` and `std::string` functions it uses are modelled by what their manuals say | Constants are specified as base, digits and suffix, their type by a transcription of C17 6.4.4.1 and their number by a fold over the digits. The string functions are computed on the text of such a constant (lemmas for a last occurrence, scanning a prefix of digits), then a case analysis by base and suffix; 128 bits by splitting the digits at the boundary the code uses and adding the parts. Where C and the code differ: witnesses. |
| C99 | the symbol table (`SymbolTable.cpp`): opening and closing scopes with lazily saved tables, adding types, aggregates, identifiers and the members of `with` clauses, conflicts, look-ups; mangled names, type compatibility and the passes that drive it are parameters | The chain of saved tables is shown to be a stack with one table for each open scope (saving lazily changes nothing); then, by induction over the program, each table agrees with lists of the declarations of the open scopes, which is the specification. Rejections are characterized by the declarations of the innermost scope. Where the code differs: witnesses. |
| C100 | `removeSpecialOverrides` and the part of `addIdToTable` for constructors, destructors and assignments; mangled names, type keys and `isCopyFunction` are parts of a declaration | The specification says, for a set of declarations and without order, which functions can be used. An invariant by induction over the declarations: the user's functions are in the table, a given function is marked deleted or missing exactly when it is withdrawn. Where built-in functions, equal names in nested blocks and early definitions go otherwise: witnesses. |
| C101 | the operators of `gmp.hfa` for `Int`, `long int` and `unsigned long int` operands, with C conversions and traps; the functions of the GMP library are integers and their operations (trusted) | Cases over the operand types; each result is compared with the integers. Where an overload is wrong, the theorem says exactly for which operands it is right, with witnesses. |
| C102 | expansion of member tuples, exploding of tuple expressions into components with unique expressions, the matchers for multiple and mass assignment with the types of their temporaries, and the run of the generated statement expression, its assignments in any order; scalars only, no constructors | Induction over types and expressions: the components, evaluated one after another, are the expression evaluated once. Then induction over the order of the assignments. References on the left, references on the right of a mass assignment and repeated places are refuted by runs. |
| C103 | resume (both forms), prime, suspend, the end of a main, the destructor, cancellation, resumeAt, poll, checked_poll of coroutine.hfa/.cfa, with coroutine_cancelstop; what a coroutine continues with after a switch is a field; mains perform any operations; assertions on; stacks, context switch and unwinder trusted | The specification finds from the history of events alone where control goes. An invariant ties the pointers, states and cancellation field of every coroutine to the history, preserved by each operation. The exceptions need no orderliness: induction over the run. Cancellation of a coroutine whose latest resumer waits elsewhere, clean-up that switches, and a first resume by pointer are refuted by runs. |
| C104 | __alloc, cfa_io_allocate, __submit_only, cfa_io_submit, ioring_syscsll, __release_sqes, __cfa_do_flush, __cfa_do_drain and the arbiter (io.cfa), with u32 counters that wrap and masked indexes; one context, requests of one entry; the kernel as io_uring(7) describes it, taking any part of a submission and completing in any order; assertions off; waking and statistics left out | Each ring represents a list; an invariant says the free entries, those held and those listed are all entries once, and accounts for every request; preserved by each step. The refuted parts (arbiter's test inverted, mark cleared, refusal while draining, two processors releasing) by runs, two of them with an invariant that nothing later helps. |
| C105 | pthread_key_create, pthread_key_delete, pthread_setspecific, pthread_getspecific, pthread_deletespecific_, pthread_create, pthread_join, pthread_tryjoin_np, pthread_exit (pthread.cfa); each function under the key lock one step, the deletion of a thread's data a machine of its own whose steps others may interleave; bodies of destructors are calls of the joining thread | invariant over histories: links of keys are the entries in use, what an ended thread still has is behind the scan; where it is not: who calls destructors, threads never joined, keys deleted during the call, the main thread, tryjoin |
| C106 | the passes of Lvalue.cpp on annotated expressions (all but GeneralizedLvalue, `?[?]`, members, tuples, comma), the typing of & and the lvalue rule of Expr.cpp, a small C over a store of words; the meaning of references is a separate function on the resolved expression | induction on the expression: what the C of an expression, of a chain of & and of an argument stands for, with cancellation lemmas for &* and *&; where it is not: deep references to reference parameters, temporaries of branches not taken, & in the branches of ?:, &*p as a reference, & of &, two levels up, returned references |
| C107 | the reader of parseconfig.cfa over a list of characters (words of `wdi`, `nl`, comments), the growth of the table, the sizes of string blocks, and the loop of `parse_config` for entries with arbitrary parse and validate functions; opening of the file, other formats and the printing of exceptions are left out | files are rendered from lines (Spec/Config.lean) and read back, by induction on the lines; the loop by induction on the pairs with the count of entries seen as invariant; repeated keys, ruled comment lines, missing values, short string blocks and freed strings are violations |
| C108 | the tables parse_args makes, its loop over the answers of getopt_long, check_args, the number and truth-value parsers, and the wrapping of help text; getopt_long and strtoll are modelled from their definitions (POSIX/C11), without abbreviated names; double is left out | command lines are rendered from items (Spec/Args.lean) and run, by induction on the items; numbers by a grammar in the specification, both directions; the wrapping by induction on the text; `h` options, short-only options, `=` arguments, empty ints and terminals of 0 columns are violations |
| C109 | disable_interrupts, enable_interrupts, poll_interrupts, force_yield and the signal handler as steps on one processor, with the regions the handler looks for; the one-shot timer, the alarm list and its tick; a step is one access to the variables of preemption, and the instructions within an access, the kernel's own threads and in_progress are left out | sections are counted in the list of events (Spec/Preempt.lean); an invariant by place, kept by every event; a second invariant says a switch is owed until it takes place; a rank shows that routines return; the timer by an invariant over its histories; the window before enable_interrupts returns, calls that do not poll, more than 65536 sections and the first tick are violations |
| C110 | the expansion of inline enumerations, the C enumeration and the arrays that are generated, the generated routines and those of the prelude on top of them, loops over an enumeration, and the offset of a conversion; base types are integer types, and resolution (which routine a comparison names, which child a cost picks) is taken as intended | values by a recursion in Spec/Enum.lean against the initializers the compiler builds; positions and bounds by induction on the enumerators; loops by induction on what is left, in 32-bit arithmetic; conversions by induction on the way from target to source; enumerators before an inline one, nested first children, inherited values, opaque over typed and += past the end are violations |
| C111 | the constructor, fmt, write and clear of a string output stream on the memory from its buffer on, and fmt of a string input stream; vsnprintf and vsscanf are as C defines them, conversions are those that read within a word and %c; separators are those of C96 | the buffer, cursor and file against a text and a file in Spec/StrStream.lean, by induction on the history; memory past the buffer by the same; reads by induction on the words; other white space, characters, the end of the buffer and the text after a clear are violations |
| C112 | the manipulators for C strings and quoted strings, reading an enumerator with its matrix of labels, nl, and reading a 128-bit integer; scanf is as C defines it, on the list of the characters that are left and the end-of-file flag; a statement is left at an exception, and scan sets have no ] | the result of each read as a function of the text, the array and what follows it (gives in Spec/StrInput.lean), by the two cases of a scan with a width; writes by a bound on what a scan reads; enumerators by an invariant of the two loops: lengths and exact match after each label of a column; digits by induction; getline with a read width, ranges, the end in quote, quoted characters, the newline after an enumerator, prefixes and minus signs are violations |
| C113 | __Cofor__ with its division of the range, and the statement cofor as the compiler expands it: the loop that sends, the flags, and the runners, one step for each access of shared data; removal and insertion are one step since they are done under a lock (C37), and there is at least one processor | ranges by appending intervals; the statement by an invariant of all executions: what a runner has run, runs and has waiting is its share of what was sent, and a runner is past the loop only if its flag is set and its list empty; the end by counting the steps that a runner still needs; bounds whose difference overflows are a violation |
| C114 | The lock state, both queues and where each thread is (Model/OldLocks.lean), one step per critical section, for the mutex with a condition lock, and the recursive mutex. | Invariants over all schedules: queues are the sleeping threads in order of arrival, and the flag says whether somebody holds the lock. `wait` on a recursive lock that is locked twice is refuted. |
| C115 | the loop that counts the sequences of a literal, the joining of adjacent literals with their encodings, the separation of units, and the pass that sets the dimension; an item of a list is reduced to its array designator | induction over the characters of each literal as C writes them (longest match) and over the literals; encodings, universal character names, designators and lists without inner braces are violations |
| C116 | the value kept with a character constant, and EnumDecl::valueOf with its map and the evaluation of initializers that calls it again, up to a bound on the depth of calls | soundness by an invariant of the loop (what is in the map is the value in C) and induction over the depth; answers by induction over the members; escape sequences and the endless recursion, which is proved for every depth, are violations |
| C117 | `RangeIter` with the `%u%n-%u%n` of the C library, `read_width`, `count_cpus` on the text of the file, the indices of `build_raw_cache_table` | induction over the items of the list, the bound of the table by counting; violated for the empty list, for lines of 128 characters and more, and for lists with a gap |
| C118 | `distinct_llcs`, `get_cpu_pairings`, any result of the sort, the loop that sets the starts and the one that fills the entries, on a system whose processors are 0 to n-1; the widths are those of the model of C117 | invariants of the two loops over the sorted pairings, and counting; violated for lists that are cut at 31 characters |

## How concurrent code is modelled

`Model/Trans.lean` defines `Reach next s0 s`: `s` is reached from `s0` by steps of the partial function `next : State -> Action -> Option State`. An action names the thread that makes the step; any thread may make the next step, so `Reach` covers every schedule, with no bound on threads, steps or nesting. Theorems are about all `s` with `Reach next start s`. A blocked thread has no enabled action. Claims of progress are of the form "if nothing can move, then nobody waits" or "a step of this thread is enabled"; they do not need fairness, and do not claim more.

What is atomic: one atomic instruction of the code, or a section that is protected by an internal spin lock, together with the code of the same thread around it that touches no shared data. Memory is sequentially consistent. Weak-memory effects of the `__ATOMIC_RELAXED` accesses are outside of the model; where the code uses them, the comment of the definition says so.

## Properties that are false of the code

A theorem with the suffix `_violated` proves, about the model of the code as it is, the negation of a part of the property - by a reachable state or a concrete argument, or in general form. The `_partial` theorems beside it state what remains true, with the full statement of the property kept in `properties.jsonl`. The notes in `MANIFEST.json` say in words what is false. These are claims about the model; the code was not executed.

## What is modelled

Everything that is not cited by a definition in these modules is not modelled; in particular the machine code that the translator generates, context switching, the C library, input/output and floating-point functions. The comment at the head of each module:

* `Model/Actor.lean` - Actor executors: mailboxes, the loop of the workers, and work stealing (libcfa/src/concurrency/actor.hfa, with `__STEAL`). A critical section under the spin lock of a mailbox is one step; every other access to a variable shared by workers is a step of its own. Mailboxes, workers, actors, messages and threads are numbers. Not modelled: statistics, allocation failure, wrapping of `buffer_size`, shutdown (`is_shutdown`, destructors), the status of actors and messages after a delivery (Model/ActorCount.lean has the number of actors), the virtual processors. The heuristics of the workers (the order in which a worker looks at its mailboxes, when it looks for a victim, and which one: actor.hfa:527-537, 558-573, 583-585, 594-602, 609-629) are left open: the model allows every choice, which only adds executions. Cited: `actor.hfa`, `libcfa/src/concurrency/actor.hfa`.
* `Model/ActorCount.lean` - `actor_stop` and the number of actors (libcfa/src/concurrency/actor.hfa:393-446, 676-704). The thread that called `actor_start` is `main` here; its `park` and the `unpark`s follow the tickets of Model/Park.lean in one step each. Not modelled: the executor, and when an actor terminates (Model/Actor.lean has deliveries): an actor may terminate at any time after its creation. Cited: `actor.hfa`, `kernel.cfa`, `libcfa/src/concurrency/actor.hfa`.
* `Model/Alarm.lean` - Model of the alarm list, /repo/libcfa/src/concurrency/alarm.cfa and the expiry pass of /repo/libcfa/src/concurrency/preemption.cfa, on top of the model of `dlist`. The list header is at address `Q`. Times are unbounded integers (nanoseconds). `register_self` and `unregister_self` run under the event kernel's lock with interrupts disabled, so each call is one step. What an alarm does when it fires (`preempt`, `timeout`, `callback`) is recorded by the node only. The interval timer is not modelled. Cited: `/repo/libcfa/src/concurrency/alarm.cfa`, `/repo/libcfa/src/concurrency/preemption.cfa`, `alarm.cfa`, `alarm.hfa`, `preemption.cfa`.
* `Model/Alloc.lean` - The typed allocation functions of /repo/libcfa/src/stdlib.hfa and stdlib.cfa. A block is the list of its bytes; a byte nobody has initialised is `none`. Writing outside the block, or reading outside a source array, is undefined. The allocator itself (heap.cfa) is represented by what these functions rely on: `memalign` and `resize` give a block of the size asked for, `realloc` one that starts with the bytes of the old block (as many as fit), and `malloc_size` the size the old block was asked for. Memory exhaustion and alignment are left out. Cited: `/repo/libcfa/src/heap.cfa`, `/repo/libcfa/src/stdlib.hfa`, `/repo/src/Parser/parser.yy`, `heap.cfa`, `stdlib.cfa`, `stdlib.hfa`.
* `Model/Args.lean` - # Command-line options (`libcfa/src/parseargs.cfa`) `parse_args` makes the tables for `getopt_long` from the options, and gives what it returns to the parse functions. Characters are ASCII. Cited: `libcfa/src/parseargs.cfa`, `parseargs.cfa`, `parseargs.hfa`.
* `Model/ArithRes.lean` - Model of the tables of the basic types and of the resolution of arithmetic expressions over them: the conversion costs (src/ResolvExpr/ConversionCost.cpp), the common types (src/ResolvExpr/CommonType.cpp), the operators the prelude declares (libcfa/prelude/prelude-gen.cc) and the choice among them (src/ResolvExpr/CandidateFinder.cpp, src/ResolvExpr/Resolver.cpp). Costs are those of `Verif.Model.Cost`. Simplified throughout: types have no qualifiers and no reference levels; the type environment, the open variables and the assertions are empty, as they are for these operators; the only functions named by an operator are those of the prelude for basic types (the pointer versions do not unify with a basic type; user-defined overloads are not modelled). Cited: `Cost.hpp`, `gen.cc`, `src/AST/BasicKind.hpp`, `src/ResolvExpr/Candidate.hpp`, `src/ResolvExpr/CandidateFinder.cpp`, `src/ResolvExpr/CastCost.cpp`, `src/ResolvExpr/CommonType.cpp`, `src/ResolvExpr/ConversionCost.cpp`, `src/ResolvExpr/Resolver.cpp`, `src/ResolvExpr/Unify.cpp`.
* `Model/Array.lean` - Model of multi-dimensional arrays and slices, /repo/libcfa/src/collections/array.hfa. The type `arpk(N, S, Timmed, Tbase)` of an array or slice is the list, outermost first, of its dimensions: the number of elements N and the stride sizeof(S) in bytes. Subscripting yields an address and the type of the designated part. Addresses are integers. Cited: `/repo/libcfa/src/collections/array.hfa`, `array.hfa`.
* `Model/Barrier.lean` - The barrier (concurrency/barrier.hfa). One barrier, any number of threads. The barrier is a monitor: what `block` does between entering the monitor and waiting or leaving is one step (C53). Threads that have been signalled leave in any order, and new threads may enter before they do: the monitor gives signalled threads precedence, the model does not rely on it. Cited: `barrier.hfa`, `concurrency/barrier.hfa`.
* `Model/Base.lean` - Common outcome type of modelled functions. Cited: .
* `Model/Bitmanip.lean` - Model of `libcfa/src/bitmanip.hfa` and `libcfa/src/bits/align.hfa`. Every C overload on an unsigned type of width `w` is an instance of one definition on `BitVec w`. The overloads for `char` and `short` call the `unsigned int` builtins after zero extension: those have the separate width `W` of `unsigned int` as a parameter (`W = w` gives the wider overloads). Cited: `bitmanip.hfa`, `bits/align.hfa`, `libcfa/src/bitmanip.hfa`, `libcfa/src/bits/align.hfa`.
* `Model/Channel.lean` - Channels (channel.hfa). One channel, any number of threads. Each critical section under `mutex_lock` (a `go_mutex`, C37) is one step; so is the unprotected test of `closed` before it. A thread that has put itself on one of the lists counts as parked from then on. Threads in a `waituntil` statement are left out: all nodes on the lists are those of blocked threads, for which `__handle_waituntil_OR` is true exactly when the list is not empty (select.hfa:170-183). Cited: `channel.hfa`, `exception.h`, `select.hfa`.
* `Model/Cofor.lean` - # Parallel loops (`libcfa/src/concurrency/cofor.hfa`, `cofor.cfa`, `src/Concurrency/Corun.cpp`) Cited: `Corun.cpp`, `cofor.cfa`, `cofor.hfa`, `libcfa/src/concurrency/cofor.hfa`, `src/Concurrency/Corun.cpp`.
* `Model/Collections.lean` - Model of `libcfa/src/bits/collections.hfa`: the runtime's intrusive `__queue`, `__stack` and `__dllist`. Null is node 0 and the queue terminator `1p` is node 1, so real nodes are numbered from 2. A failed `verify` is `abort`; dereferencing `0p` or `1p` is undefined. Cited: `collections.hfa`, `libcfa/src/bits/collections.hfa`.
* `Model/Config.lean` - # Configuration files (`libcfa/src/parseconfig.cfa`) `parse_config` reads a file of keys and values with `parse_tabular_config_format`, and hands each value to the entry with that key. Characters are `Char`; a C string is a list of them. Cited: `libcfa/src/iostream.cfa`, `libcfa/src/parseargs.cfa`, `libcfa/src/parseconfig.cfa`, `parseconfig.cfa`, `parseconfig.hfa`.
* `Model/ConstVal.lean` - The values that the compiler takes character constants and enumerators to have: they decide the index of a designator and whether two array types are the same (Common/Eval.cpp 35-39, 101-110). Cited: `AST/Decl.cpp`, `AST/Decl.hpp`, `Common/Eval.cpp`, `Parser/ExpressionNode.cpp`, `ResolvExpr/CurrentObject.cpp`, `ResolvExpr/Unify.cpp`.
* `Model/Convert.lean` - The conversion of character strings to integers: /repo/libcfa/src/stdlib.cfa:136-145 and the functions `strto` of /repo/libcfa/src/stdlib.hfa:338-345, for a 64-bit `long`. `strtol` and `strtoul` are those of C (in the "C" locale, base 10). A string is the list of its characters before the terminating null. Cited: `/repo/libcfa/src/stdlib.cfa`, `/repo/libcfa/src/stdlib.hfa`.
* `Model/Coroutine.lean` - Model of coroutines on one thread: resume, prime, suspend, the end of a main, destruction, cancellation, and exceptions sent from one coroutine to another. libcfa/src/concurrency/coroutine.hfa $ctx_switch, suspend, resume libcfa/src/concurrency/coroutine.cfa constructor, destructor, prime, leave, finish, poll, resumeAt libcfa/src/concurrency/invoke.c the frame below the main of a coroutine libcfa/src/concurrency/exception.cfa the end of a cancelled coroutine A coroutine is a number; 0 is the thread's own. What the mains compute is not modelled: at any moment the active coroutine may perform any operation. Stacks, `__cfactx_switch` (assembly) and the unwinder are trusted: switching to a coroutine continues where it switched away, which is kept as `wait`. The assertions are taken as switched on. The storage of a destroyed coroutine is taken to keep its last contents. Cited: `coroutine.cfa`, `coroutine.hfa`, `exception.cfa`, `invoke.h`, `libcfa/src/concurrency/coroutine.cfa`, `libcfa/src/concurrency/coroutine.hfa`, `libcfa/src/concurrency/exception.cfa`.
* `Model/Cost.lean` - Model of the resolution cost (src/ResolvExpr/Cost.hpp). A cost is its 64-bit word `all`; the eight components are its bytes (little-endian, lines 30-43). Cited: `Cost.hpp`, `src/ResolvExpr/Cost.hpp`.
* `Model/CpuList.lean` - Lists of processors such as `0-3,8`: the iterator over them (algorithms/range_iterator.cfa), their width and the table that the run-time builds at its start (device/cpu.cfa). A text is a list of characters and ends where the list ends. Cited: `algorithms/range_iterator.cfa`, `cpu.cfa`, `device/cpu.cfa`, `range_iterator.cfa`, `range_iterator.hfa`.
* `Model/CpuMap.lean` - The map from processors to last-level caches that the run-time builds at its start (device/cpu.cfa). The processors are 0 to n-1, and `shared i` is the text of the list of the processors that share the last-level cache of processor i (what is kept of the file `shared_cpu_list`). Arithmetic is unbounded, and a start that is not set, `-1u` in the code, is `none`. The case of a system without caches (cpu.cfa 361-376) is not modelled. Cited: `cpu.cfa`, `cpu.hfa`, `device/cpu.cfa`.
* `Model/Dlist.lean` - Model of the intrusive doubly linked list `dlist`, /repo/libcfa/src/collections/list.hfa. A pointer is a natural number; memory addresses of list headers and of nodes are even and not 0, 0 is null, and the origin tag is bit 0 (the fallback case of lines 104-108; on x86-64 the tag is another bit that no address uses, bit 63). The link fields of the object at address `a` are `next a` and `prev a`; the offset of the link inside an element (`inner`, lines 30-70) is abstracted: header and elements are identified with the address of their link. The normal configuration is modelled (no `__EXPERIMENTAL_…__` macro). `dbg` says whether `verify` is compiled in. Reading or writing a link of null is undefined behaviour. Cited: `/repo/libcfa/src/collections/list.hfa`, `list.hfa`.
* `Model/Enum.lean` - # Enumerations The enumerations of CFA (`enum( T ) E { … }`, typed, and `enum() E { … }`, opaque): how an `inline` enumeration is put into another, the C enumeration that is generated, the arrays and routines that are made for it, the routines of the prelude on top of them, loops over an enumeration, and the conversion from an enumeration to one that has it inline. Cited: `AST/Decl.hpp`, `AST/Expr.cpp`, `CodeGen/CodeGenerator.cpp`, `ControlStruct/TranslateEnumRange.cpp`, `Parser/TypeData.cpp`, `ResolvExpr/CandidateFinder.cpp`, `ResolvExpr/ConversionCost.cpp`, `Validate/EnumAndPointerDecay.cpp`, `Validate/ImplementEnumFunc.cpp`.
* `Model/Eval.lean` - Model of the compiler's evaluator of constant expressions (src/Common/Eval.cpp) and of the comparison of array dimensions that uses it (src/ResolvExpr/Unify.cpp). Resolved expressions only: an operator carries the integer type at which the resolver chose it, to which its arguments have been converted. Arithmetic on `long long int` that overflows is undefined behaviour of the compiler. Cited: `Eval.cpp`, `src/AST/Decl.cpp`, `src/Common/Eval.cpp`, `src/Common/Eval.hpp`, `src/GenPoly/GenPoly.cpp`, `src/ResolvExpr/Unify.cpp`.
* `Model/Except.lean` - # Exceptions `src/ControlStruct/ExceptTranslate.cpp` rewrites `try` and `throw` into calls of `libcfa/src/exception.c`. Modelled: termination and resumption exceptions, their handlers with conditions, `finally`, rethrowing, default handlers, cancellation of the stack and the hierarchy of exception types, on one stack. The statements are those of a program (`Stmt`) and of the rewritten program (`TStmt`); the effect of expressions on the store is arbitrary (`Prog`). The store is shared by all functions: local variables, parameters and results are part of it. The unwinder is the one of the C compiler (`_Unwind_RaiseException`, `_Unwind_ForcedUnwind`): it looks for a frame with a handler from the top of the stack outwards, then runs the cleanups of the frames inside it. Not modelled: exceptions thrown between coroutines and threads, `break` and `continue` out of a `try` statement, and conditions and copy routines that throw. Cited: `AST/ExceptionKind.hpp`, `AST/Stmt.hpp`, `ExceptTranslate.cpp`, `concurrency/invoke.h`, `exception.h`, `src/ControlStruct/ExceptTranslate.cpp`, `virtual.h`.
* `Model/FilterCombos.lean` - Model of `filterCombos` (src/Common/FilterCombos.hpp). The combination iterator is a filter on prefixes: `append x` accepts when `ok` holds of the current prefix followed by `x`, and then holds that prefix; when it refuses, it is unchanged; `backtrack` removes the last element; `finalize` gives the current combination (FilterCombos.hpp:27-44; src/ResolvExpr/SatisfyAssertions.cpp:400-428). The number of turns of the outer loop is bounded by `fuel`; running out is undefined. Cited: `FilterCombos.hpp`, `src/Common/FilterCombos.hpp`, `src/ResolvExpr/SatisfyAssertions.cpp`.
* `Model/Futex.lean` - The futex-based locks `futex_mutex` (locks.hfa:238-299) and `go_mutex` (locks.hfa:301-368). Each atomic instruction, plain read of `val` and system call is one step. The kernel: FUTEX_WAIT compares and sleeps in one step, FUTEX_WAKE wakes some sleeping thread, and a sleeping thread may be woken spuriously (futex(2)). `Pause` and `sched_yield` have no effect on the state. Cited: `locks.hfa`.
* `Model/Future.lean` - The multi-consumer future of future.hfa (lines 28-220). One future, any number of threads. `lock` is a `futex_mutex` (C36): acquiring it is a step that is possible when it is free; the rest of a critical section is one step, which frees it. `unlock` frees it whoever calls it (locks.hfa:289-294). A thread that has put its node on `waiters` counts as parked. Nodes of `waituntil` statements are left out. Cited: `future.hfa`, `locks.hfa`.
* `Model/GenLayout.lean` - # Layout of generic structures and unions Model of how code that does not know the type arguments of a generic type finds out its size, its alignment and the offsets of its members: `src/GenPoly/Box.cpp` 78-353 (the layout function of a generic type), 1590-2290 (size, alignment and offset expressions, calls of the layout functions), `src/GenPoly/InstantiateGeneric.cpp` 161-230 and 552-640 (which instances become C types), `src/GenPoly/GenPoly.cpp` 82-130. Simplifications: `size_t` is unbounded; a name of the form `_sizeof_<mangled type>` is represented by the type itself; a pointer type is a basic type; only sizes are kept of basic types. Cited: `Box.cpp`, `GenPoly.cpp`, `InstantiateGeneric.cpp`, `src/AST/Type.hpp`, `src/GenPoly/Box.cpp`, `src/GenPoly/GenPoly.cpp`, `src/GenPoly/InstantiateGeneric.cpp`.
* `Model/Gmp.lean` - Model of the multi-precision integers: libcfa/src/gmp.hfa. Simplified throughout: a GMP number is an integer, and the functions of the GMP library do what its manual says (they are part of the trusted base, section "The GMP library" below); storage is not modelled. `long int` is 64 bits wide. A `long int` or `unsigned long int` is an integer in its range. C arithmetic that overflows wraps around, except that the division instruction traps. Cited: `libcfa/src/gmp.hfa`.
* `Model/Heap.lean` - Pointer structures: nodes are non-zero natural numbers (addresses), 0 is the null pointer, a field of all nodes is a function from addresses. Shared by the models of the intrusive lists. Cited: .
* `Model/HeapAlloc.lean` - The memory allocator of the run-time system: libcfa/src/heap.cfa. Modelled: byte memory with the headers the allocator keeps in front of the blocks, the intrusive free lists and return lists, the reserve of each heap, the heap master and `sbrk`, mapped blocks, aligned blocks with their second header, and every allocation routine, by unboundedly many kernel threads. Simplifications. * The build without `__CFA_DEBUG__`; the counters of `__STATISTICS__` are left out; `OWNERSHIP`, `RETURNSPIN` and `FASTLOOKUP` are defined (heap.cfa:42-54). 64-bit words, 4096-byte pages. * One step is a part of a routine with at most one access to data of other threads: the look at the return list, one critical section, or one system call. The rest of a step touches data only that kernel thread uses (its heap and its blocks; the routines run without preemption: `libcfa_nopreempt`). * The heap structures themselves are not in the byte memory. The address of bucket `b` of heap `h` is `homeAddr h b`, a multiple of 64 (`CALIGN`), and a superblock of heaps has no end. * `sbrk` gives out the addresses from `base` up to `sbrkLimit`, and only this allocator calls it. `mmap` gives out pages from `sbrkLimit` up to 2^47 that no mapping uses, and fills them with 0. Either may refuse. Cited: `bitmanip.hfa`, `heap.cfa`, `libcfa/src/heap.cfa`.
* `Model/HybridLock.lean` - `exp_backoff_then_block_lock` (locks.hfa:370-444), `fast_block_lock` (locks.hfa:446-501), and the locks that spin on a flag inside of another lock: `spin_queue_lock`, `mcs_block_spin_lock` and `block_spin_lock` (locks.hfa:667-797). Each atomic instruction and each critical section under a `__spinlock_t` is one step. A thread that has put itself on a list of blocked threads counts as parked from then on (an `unpark` that comes before the `park` makes the `park` return at once, C50). Cited: `kernel.cfa`, `locks.cfa`, `locks.hfa`.
* `Model/IdleSleep.lean` - # Idle processors Model of the idle sleep of processors, `libcfa/src/concurrency/kernel.cfa` 149-272 (main loop), 454-464 (making a thread ready), 633-793, and of the search of the ready queue, `libcfa/src/concurrency/ready_queue.cfa` 62-107, 164-241: one cluster with `n` processors and `c` lanes. Threads are made ready by any number `m` of callers (processors of this or other clusters, or other kernel threads), which are agents of their own. Simplifications: every access to shared memory is atomic and sequentially consistent; of a lane only the number of threads is kept (the order is the subject of `Model/Lane.lean`); the number of lanes does not change. A running processor may try any lane (`pop_fast`, `pop_slow`), run threads or decide to halt at any time. Cited: `kernel.cfa`, `libcfa/src/concurrency/kernel.cfa`, `libcfa/src/concurrency/kernel/startup.cfa`, `libcfa/src/concurrency/ready_queue.cfa`, `ready_queue.cfa`.
* `Model/InitCursor.lean` - # Finding the subobject that an initializer initializes Model of `src/ResolvExpr/CurrentObject.cpp` (the iterators over the members of a type, and the stack of current objects) and of the treatment of initializers in `src/ResolvExpr/Resolver.cpp` 1228-1298: for each expression of an initializer the compiler decides which subobjects it might initialize, resolves the expression for their types, and moves on. Simplifications: members are named by their position in the declaration (so that names are unique and found, lines 506-522); the array dimensions and index designators are numbers; generic arguments, which only replace types, are left out. Which of the offered types the expression is resolved for (`findSingleExpression`) is an input: the number of the option. Cited: `CurrentObject.cpp`, `Resolver.cpp`, `src/ResolvExpr/CurrentObject.cpp`, `src/ResolvExpr/Resolver.cpp`.
* `Model/InitLength.lean` - The length of an array that is declared without one: string literals (Parser/ExpressionNode.cpp, Parser/parser.yy) and initializers (Validate/InitializerLength.cpp). Texts are lists of characters, and a character beyond the end is the null character. Cited: `AST/Init.hpp`, `ExpressionNode.cpp`, `InitializerLength.cpp`, `Parser/ExpressionNode.cpp`, `Parser/parser.yy`, `Validate/InitializerLength.cpp`, `parser.yy`.
* `Model/IntLit.lean` - Model of the translation of integer constants: src/Parser/lex.ll (the token) and src/Parser/ExpressionNode.cpp (its type and value), for a machine with 32-bit `int`, 64-bit `long` and `__int128`. Simplified throughout: a `std::string` is a list of characters, and reading a position at or after its end gives NUL; the location of the constant is left out; `SemanticError` is `none`. Imaginary suffixes are not modelled. Cited: `src/Parser/ExpressionNode.cpp`.
* `Model/IoUring.lean` - Model of an I/O context: requests, entries of the submission ring, completions. libcfa/src/concurrency/io.cfa allocation, submission, flushing, draining, the arbiter libcfa/src/concurrency/io/setup.cfa the initial state libcfa/src/concurrency/io/call.cfa.in what a request does One context (one ring of a cluster) is modelled, used by the threads of its own processor, by threads that have migrated (external submission) and by processors that help. The operations below are single steps; `enter`, `relRead` and `relWrite` are the parts of a system call with the release of its entries, for calls of two processors that overlap. A request is a number, standing for its future; it asks for one entry, as all requests of call.cfa.in do. The kernel is the one described by io_uring(7): a system call consumes at most the given number of the entries listed, in order; each consumed entry completes once, at any time; completions are appended to the completion ring, or kept back if it is full, until a call with IORING_ENTER_GETEVENTS. Assertions (`verify`) are taken as switched off. Statistics, signals, waking of threads, and the choice of whom to help are not modelled. Cited: `call.cfa`, `io.cfa`, `io/call.cfa`, `io/setup.cfa`, `io/types.hfa`, `libcfa/src/concurrency/io.cfa`, `libcfa/src/concurrency/io/call.cfa`, `libcfa/src/concurrency/io/setup.cfa`.
* `Model/KFuture.lean` - The kernel's `future_t` (kernel/fwd.hfa:219-408) with its `oneshot` wait contexts (179-217). An unbounded array of futures, one client thread, and for each future a server that fulfils it once. Each access to a shared word is a step. `reset` and the `available` test are not modelled. The paranoid `verify` checks are not modelled. The wait context is a local of the client's `wait` or `wait_any`: it is created at an arbitrary address `c` chosen by the caller, and dies when the call returns. park and unpark: the ticket of C50, `token` counts the client's wake-ups not yet consumed. Cited: `fwd.hfa`, `kernel/fwd.hfa`.
* `Model/Lane.lean` - Model of a lane of the ready queue, /repo/libcfa/src/concurrency/ready_subqueue.hfa. Threads and the mock heads of the lanes are addresses; the anchor of a lane is the `rdy_link` of its mock head (`mock_head`, lines 24-30). A lane is named by the address of its mock head. Null is 0. The caller holds the lane's lock (lines 35, 65). `dbg` says whether `verify` is compiled in. The statistics counter is not modelled. Cited: `/repo/libcfa/src/concurrency/ready_subqueue.hfa`, `invoke.h`, `kernel/cluster.cfa`, `ready_subqueue.hfa`, `thread.cfa`.
* `Model/Mangler.lean` - The symbol mangler of the translator: /repo/src/SymTab/Mangler.cpp with the code tables of /repo/src/SymTab/ManglerCommon.cpp and the operator table of /repo/src/CodeGen/OperatorTable.cpp. Modelled: `Mangle::mangle(decl)` in the default mode (`typeMode = false`, `mangleGenericParams = true`, `mangleOverridable = true`), for every type that a declaration can have after validation. The strings are lists of characters; `mangleName` is the accumulator. Not modelled: trait instances (a declaration never has such a type), qualified types `A.B` (replaced by their child before symbols are mangled), and the kinds of type variable for which `printQualifiers` fails its assertion (only dtype, ftype and ttype remain at this point). Cited: `/repo/src/CodeGen/OperatorTable.cpp`, `/repo/src/SymTab/Mangler.cpp`, `/repo/src/SymTab/ManglerCommon.cpp`.
* `Model/Math.lean` - Model of the integer functions of `libcfa/src/math.cfa` and `libcfa/src/math.hfa`: power, alignment, fixed-point logarithm. Floating-point functions are not modelled. Cited: `libcfa/src/math.cfa`, `libcfa/src/math.hfa`, `math.cfa`, `math.hfa`.
* `Model/Maybe.lean` - Models of `maybe`, `result` and `pair`, /repo/libcfa/src/collections/{maybe,result,pair}.{hfa,cfa}. The storage of the value is a cell, `some x` while it holds a constructed object. Destroying or assigning a cell that holds no object (or, in `result`, an object of the other type) is undefined behaviour; constructing over an object that was not destroyed leaks it, which is counted. Temporaries made for parameters and returned values are not modelled. Cited: `maybe.cfa`, `maybe.hfa`, `pair.cfa`, `result.cfa`, `result.hfa`, `src/InitTweak/FixInit.cpp`.
* `Model/Mcs.lean` - `mcs_lock` (locks.hfa:153-178, with `push` and `advance` of `mcs_queue`, lockfree.hfa:18-57, and `wait` and `post` of `single_sem`, kernel/fwd.hfa:138-173) and `mcs_spin_lock` (locks.hfa:180-236). Threads are non-zero numbers; each thread has one node, so that the node is identified with the thread; 0 is the null pointer. Each atomic instruction and each access to a field of a node is one step. The semaphore of a node is a flag: `wait` passes, and clears it, when it is set (C51). Cited: `kernel/fwd.hfa`, `lockfree.hfa`, `locks.hfa`.
* `Model/Monitor.lean` - Monitors: mutual exclusion, internal scheduling (`wait`, `signal`, `signal_block`) and external scheduling (`waitfor`) over any number of monitors (libcfa/src/concurrency/monitor.cfa, monitor.hfa, invoke.h). Monitors, threads, conditions and functions are numbers; the number of a monitor is its address. A critical section under the spin lock of a monitor is one step, and so is one under the spin locks of several monitors (`lock_all` ... `unlock_all`), with one exception: `wait` gives up its monitors one at a time and other threads may act in between, which only adds executions. A second `lock_all` of the same spin lock never returns, so such a step is not enabled. `unpark` leaves a token for a thread that has not parked yet (Model/Park.lean models the kernel's side). A waiting thread has one condition node, and its criteria are known by the thread and the monitor. Not modelled: destructors and `join` (`__dtor_enter`, `__dtor_leave`, `__thread_finish`, the low bit of `owner`), the `user_info` of `wait`, wrapping of `recursion` after 2^32 nested calls, timeouts (not supported by the code either). Cited: `bits/algorithm.hfa`, `invoke.h`, `libcfa/src/concurrency/monitor.cfa`, `monitor.cfa`, `monitor.hfa`, `mutex_stmt.hfa`.
* `Model/MultiExit.lean` - # Local control flow: `break`, `continue` and `fallthrough`, with and without labels `src/ControlStruct/MultiLevelExit.cpp` replaces these statements by `goto` and adds the labels they go to; `src/ControlStruct/FixLabels.cpp` calls it for each function. The statements are those of `src/AST/Stmt.hpp`. Expressions are opaque (numbers). Not modelled: `try`, `with`, `mutex`, `waitfor` and `waituntil` statements, nested functions, computed `goto`, and the attributes of labels. Cited: `AST/Label.hpp`, `AST/Stmt.hpp`, `FixLabels.cpp`, `LabelGenerator.cpp`, `MultiLevelExit.cpp`, `Parser/StatementNode.cpp`, `impl.hpp`, `src/AST/Stmt.hpp`, `src/ControlStruct/FixLabels.cpp`, `src/ControlStruct/MultiLevelExit.cpp`.
* `Model/ObjLife.lean` - # Lifetime of objects in a function Model of `src/InitTweak/FixInit.cpp`: the check of jumps (`LabelFinder`, `InsertDtors`), the blocks around expressions (`SplitExpressions`), the temporaries of arguments and results (`ResolveCopyCtors`), and constructor and destructor calls of variables (`FixInit`), together with what gcc does with the generated C program: a variable with a `cleanup` attribute has its cleanup function called when control leaves its scope, by whatever way. Function bodies are as they are after `src/ControlStruct/MultiLevelExit.cpp`: `break`, `continue` and `fallthrough` have become `goto`, and after `src/ControlStruct/HoistControlDecls.cpp`: loops declare nothing. Simplifications: an expression is a number; of its temporaries only those with a destructor are listed, in the order of evaluation; a `switch` is made of `if`s; arrays are one object; statement expressions are left out. Cited: `FixInit.cpp`, `impl.hpp`, `src/AST/Stmt.hpp`, `src/ControlStruct/HoistControlDecls.cpp`, `src/ControlStruct/MultiLevelExit.cpp`, `src/InitTweak/FixInit.cpp`.
* `Model/OldLocks.lean` - The mutex, recursive mutex and condition lock of concurrency/mutex.cfa. Every operation is one critical section under the spin lock of the object, so it is one step. Parking is modelled by the state of the thread: a thread that is queued and parked runs again when it is unparked (Model/Park.lean models the kernel's side, where an unpark before the park is not lost). Threads are numbers. Cited: `concurrency/mutex.cfa`, `mutex.cfa`, `mutex.hfa`.
* `Model/Once.lean` - `call_once` (once.hfa) with its `poison_list` (collections/lockfree.hfa:136-194). One flag, any number of threads, each calling `call_once` any number of times with the same function. Each access to the shared `state`, `head` and `next` is a step of its own; the atomics are sequentially consistent and so are the relaxed accesses. `verify` is off (release build). park and unpark: the ticket of C50, one wake-up is remembered. Cited: `collections/lockfree.hfa`, `lockfree.hfa`, `once.hfa`.
* `Model/Ostream.lean` - # Output streams: state and the primitive operations Models the private and public operations of `ofstream` that decide where separators and newlines go. The file is the text written so far; I/O errors, the retries after an interrupted system call and flushing are not modelled. Cited: `libcfa/src/fstream.cfa`, `libcfa/src/iostream.cfa`.
* `Model/OstreamInt.lean` - # Printing integers Models `base10_128`, the output operators of `int128` and `unsigned int128`, the output operator of integral manipulators for 64-bit integers (`INTEGRAL_FMT_IMPL`), `base_128`, and the output operators of 128-bit manipulators (`INTEGRAL_FMT_IMPL128`), libcfa/src/iostream.cfa lines 128-163, 396-587. Simplified: the locale of the `'` flag is "C" (no grouping of digits); the arithmetic on widths and precisions does not overflow `int`; `ceil( log10( v ) )` is exact (line 530 uses floating point); only the 64-bit instance of the macro at line 400 is given, with the 64-bit pattern of the value. Cited: `libcfa/src/bitmanip.hfa`, `libcfa/src/iostream.cfa`, `libcfa/src/iostream.hfa`.
* `Model/OstreamSep.lean` - # Output statements: separators and newlines Models the output operators of values, strings, characters and tuples, and the manipulators that control separators and newlines, libcfa/src/iostream.cfa lines 43-377 and libcfa/src/fstream.cfa lines 46-107. Simplified: a value other than a string or a character is the text its format produces (all these operators begin with the same line); characters are those of Latin-1; the streams `exit` and `abort`, which end the program, are left out; a separator is at most 15 characters long (line 91). Cited: `libcfa/src/fstream.cfa`, `libcfa/src/iostream.cfa`, `libcfa/src/iostream.hfa`.
* `Model/OwnerLock.lean` - `blocking_lock` (single_acquisition_lock and owner_lock, locks.cfa:57-185, locks.hfa:117-151), `simple_owner_lock` (locks.hfa:503-611) and the condition variables on them (`cond_lock`, `pthread_cond_var`; locks.cfa:321-560). One lock, one condition variable, any number of threads. Each critical section under the spin lock of the lock or of the condition variable is one step; threads are non-zero numbers, 0 is the null pointer. The checks `verifyf` are only compiled into the debugging version and are left out. Waits without a lock, the use of locks in `waituntil`, and the copy of the user information are left out. Cited: `locks.cfa`, `locks.hfa`.
* `Model/Park.lean` - The ticket protocol of park and unpark (kernel.cfa:281-395, 436-464, 525-572, invoke.h:190-195). One thread, any number of processors and of threads that unpark it. The fields of the state count where the thread is, so that being in two places at once, or in none, can be expressed. Cited: `invoke.h`, `kernel.cfa`.
* `Model/PersistentMap.lean` - Model of `PersistentMap` (src/Common/PersistentMap.hpp). The nodes of all versions live in one store, indexed by the node's identity; `n` is the number of nodes created. The hash table is an association list (`std::unordered_map`: find, emplace, erase, operator[], size, count, end of a failed find). Reference counting and the order of iteration are not modelled. `reroot` is recursive: `fuel` bounds the depth of the recursion, running out of it is undefined. Cited: `PersistentMap.hpp`, `src/Common/PersistentMap.hpp`.
* `Model/Preempt.lean` - # Preemption (`libcfa/src/concurrency/preemption.cfa`) The first part is one processor: the code that runs on it, step by step, and the signal for preemption, which arrives between any two steps. The second part is the timer of the program and the alarms that wait for it. Cited: `alarm.cfa`, `kernel.cfa`, `libcfa/src/concurrency/preemption.cfa`, `preemption.cfa`, `time.hfa`.
* `Model/PthreadTime.lean` - The conversion of absolute times in the timed waits of `pthread_cond_var` (locks.cfa:562-583). Cited: `locks.cfa`.
* `Model/PthreadTsd.lean` - Model of the pthread emulation: thread-specific data, the end and the joining of threads. libcfa/src/concurrency/pthread.cfa Each function that takes `key_lock` is one step. The deletion of a thread's data by whoever joins it (`pthread_deletespecific_`, which gives up the lock around each destructor) is a machine of its own, advanced by `tick`: other threads may act between any two of its steps (the code holds the lock over some of these, so this is more than it allows). What a destructor does is not modelled: the calls it makes are operations of the joining thread, between the tick that enters it and the tick that leaves it. Values are numbers, 0 is NULL. `none` is a use of memory outside of an object, or a call of a null pointer. Cited: `libcfa/src/concurrency/pthread.cfa`, `pthread.cfa`, `thread.cfa`.
* `Model/Queue.lean` - Model of `libcfa/src/bits/queue.hfa` (intrusive FIFO queue) and `libcfa/src/bits/collection.hfa`. The state holds the `next` field of every node and the `root` and `last` fields of every queue, so that several queues share the nodes. Dereferencing null is undefined. `dbg` says whether the code is compiled with `__CFA_DEBUG__`. Loops take a number of iterations `fuel`; running out of it counts as undefined. Cited: `collection.hfa`, `libcfa/src/bits/collection.hfa`, `libcfa/src/bits/queue.hfa`, `queue.hfa`.
* `Model/Random.lean` - Model of the pseudo-random generators in `libcfa/src/bits/random.hfa` and of the range functions in `libcfa/src/stdlib.hfa` and `libcfa/src/concurrency/thread.hfa`. C unsigned types are `BitVec`. A generator step returns the value produced and the new state. Cited: `libcfa/src/bits/random.hfa`, `libcfa/src/concurrency/thread.hfa`, `libcfa/src/stdlib.hfa`, `random.hfa`, `stdlib.hfa`, `thread.hfa`.
* `Model/RangeLoop.lean` - Range loops, `for ( i; lo ~ hi ~ step )` and its variants, as the parser rewrites them: /repo/src/Parser/parser.yy:229-272 (`UPDOWN`, `makeForCtrl`, `forCtrl`), 1527-1553, 1664-1682. The bounds are taken as mathematical integers and compared as such. The index variable has an integer type; arithmetic that leaves an unsigned type wraps, and is undefined for a signed one; a conversion wraps for both. Cited: `/repo/src/Parser/parser.yy`.
* `Model/Rational.lean` - Model of `libcfa/src/rational.hfa`, `libcfa/src/rational.cfa`. Simplification (whole file): the element type `T` is the mathematical integers, so machine overflow of the underlying type is not modelled. Cited: `libcfa/src/rational.cfa`, `libcfa/src/rational.hfa`, `math.cfa`, `rational.cfa`, `rational.hfa`.
* `Model/RefLower.lean` - # The elimination of references (`src/GenPoly/Lvalue.cpp`) After resolution every expression carries the type it was given, and references are types of their own. `convertLvalue` (lines 636-647) rewrites every expression so that references become pointers: seven passes are run one after the other over the whole program. This file models * the annotated expressions the passes work on, with the rules by which an expression counts as an lvalue and by which `&e` gets its type (`src/AST/Expr.cpp`); * the passes `FixIntrinsicResults`, `AddressRef`, `ReferenceConversions`, `FixIntrinsicArgs`, `CollapseAddressDeref` and `ReferenceTypeElimination`; * what the C that comes out means: a small C with variables, `&`, `*`, `=`, `+`, `?:`, casts and calls over a store of machine words. Left out: `?[?]` (it is treated as `*?` by all these passes but `CollapseAddressDeref`), members, tuples, the comma, `asm`, bodies of intrinsic functions, the qualifiers of types, and `GeneralizedLvalue`, which only acts on `&` of a comma or of a conditional expression. Cited: `Lvalue.cpp`, `src/AST/Expr.cpp`, `src/AST/Expr.hpp`, `src/AST/Inspect.cpp`, `src/AST/Type.cpp`, `src/AST/Type.hpp`, `src/GenPoly/Lvalue.cpp`.
* `Model/SchedLock.lean` - The reader-writer lock of the scheduler (libcfa/src/concurrency/kernel/private.hfa:145-300, kernel/cluster.cfa:70-192): a processor reads while it uses the ready queues, and writes while it adds or removes ready queues, processors or clusters. Any number of kernel threads, numbered from 1; 0 is the null pointer. The local lock of a thread, `kernelTLS().sched_lock`, is in its thread-local storage, so a pointer to it is the number of the thread. Each access to a shared variable is a step; memory is sequentially consistent. A thread that spins has no step. A kernel thread registers once (startup.cfa:738-771 for processors, preemption.cfa:607, 675 for the alarm thread), and its storage disappears when it ends, some time after it has unregistered. Not modelled: a writer that is not registered (start-up, before there are other threads), and the `verify` checks. Cited: `cluster.cfa`, `kernel/cluster.cfa`, `libcfa/src/concurrency/kernel/private.hfa`, `preemption.cfa`, `private.hfa`, `startup.cfa`.
* `Model/ScopedMap.lean` - Model of `ScopedMap` (src/Common/ScopedMap.hpp) and `ErasableScopedMap` (src/GenPoly/ErasableScopedMap.hpp). A `std::map` is a list of entries in increasing order of their keys; an iterator into it is a position, the position after the last entry being `end()`. Scopes are in a list, outermost first. Iterators kept across modifications of the map are not modelled. Cited: `ErasableScopedMap.hpp`, `ScopedMap.hpp`, `src/Common/ScopedMap.hpp`, `src/GenPoly/ErasableScopedMap.hpp`.
* `Model/Select.lean` - The `waituntil` statement whose clauses are all joined by `or` (libcfa/src/concurrency/select.hfa, channel.hfa:370-588 and the code that src/Concurrency/Waituntil.cpp:939-1204 generates), for any number of threads and channels. Clauses read from or write to channels, or wait for a time-out. Threads outside of `waituntil` statements call `try_insert` and `try_remove`. A step is one access to the status word of a statement, with the code around it that the lock of a channel protects. A node of a list is the thread and the number of the clause. The buffer of a channel is the list of its elements (C39 has the array), and `put` and `took` record what completed writes put into the channel and completed reads received from it. Not modelled: `close`, blocked threads outside of `waituntil` statements, `when` conditions, the `else` clause, statements with `and`, exceptions. Cited: `Waituntil.cpp`, `channel.hfa`, `libcfa/src/concurrency/select.hfa`, `select.cfa`, `select.hfa`, `src/Concurrency/Waituntil.cpp`.
* `Model/Semaphore.lean` - Counting semaphores (locks.cfa:586-659, locks.hfa:84-114). Every operation is one critical section under the spin lock of the semaphore, so it is one step; `V` unparks after leaving it, which is a second step. Parking is modelled by the state of the thread: a thread in state `blocked` runs again when it is unparked (Model/Park.lean models the kernel's side). Threads and semaphores are numbers. Cited: `kernel.cfa`, `locks.cfa`, `locks.hfa`.
* `Model/Sequence.lean` - Model of `libcfa/src/bits/sequence.hfa` (intrusive doubly linked sequence) and `libcfa/src/bits/collection.hfa`. The state holds the `next` and `back` fields of every node and the `root` field of every sequence. Dereferencing null is undefined. `dbg` says whether the code is compiled with `__CFA_DEBUG__`. The compiler barriers (`asm`) have no effect on sequential executions and are left out. Loops take a number of iterations `fuel`. Cited: `collection.hfa`, `libcfa/src/bits/collection.hfa`, `libcfa/src/bits/sequence.hfa`, `sequence.hfa`.
* `Model/SingleSem.lean` - `single_sem` and `oneshot` (kernel/fwd.hfa:127-217). One object, one thread that waits, any number of threads that post. Each access to `ptr` is a step. park and unpark: the ticket of C50, `token` counts wake-ups not yet consumed. Cited: `fwd.hfa`, `kernel/fwd.hfa`.
* `Model/SmartPtr.lean` - # Smart pointers (libcfa/src/memory.hfa, memory.cfa) `counter_ptr(T)` and `unique_ptr(T)` for types `T` whose objects contain any number of such pointers. Simplifications: what else is in an object and what its constructor and destructor do besides destroying its pointers is left out; addresses are not reused, so that a use of freed memory is seen; assertions are not modelled; one thread. Cited: `libcfa/src/memory.hfa`, `memory.cfa`, `memory.hfa`, `stdlib.hfa`.
* `Model/Snzi.lean` - The scalable non-zero indicator (libcfa/src/concurrency/snzi.hfa), for any depth of the tree and any number of threads. A step of a thread is one access to the value of one node: a read, a compare-and-swap, or the fetch-and-add or fetch-and-sub of the root. Calls of `arrive` and `depart` on the parent are frames of a stack. Simplifications: the 56 bits of the version and the 64 bits of the root do not wrap; the 8 bits of the count do. The `verify`s, which only debug builds have, are absent. Cited: `libcfa/src/concurrency/snzi.hfa`, `snzi.hfa`.
* `Model/Sort.lean` - Model of `libcfa/src/bits/algorithm.hfa` (small sort of addresses) and of the binary searches written in `libcfa/src/stdlib.cfa`. `bsearch` and `qsort` call the C library, which is not modelled. Arrays are lists; reading or writing outside is undefined. Cited: `algorithm.hfa`, `libcfa/src/bits/algorithm.hfa`, `libcfa/src/stdlib.cfa`, `stdlib.cfa`.
* `Model/Stack.lean` - Model of `libcfa/src/bits/stack.hfa` (intrusive LIFO stack) and `libcfa/src/bits/collection.hfa`. The state holds the `next` field of every node and the `root` field of every stack. Dereferencing null is undefined. `dbg` says whether the code is compiled with `__CFA_DEBUG__`. Loops take a number of iterations `fuel`. Cited: `collection.hfa`, `libcfa/src/bits/collection.hfa`, `libcfa/src/bits/stack.hfa`, `stack.hfa`.
* `Model/StackLF.lean` - The lock-free stack (collections/lockfree.hfa:197-255). One stack, any number of threads; a node is a number other than 0 (`0p`). The two words of a `Link` are read and written one by one, in any order, where the code does not use an atomic operation; the compare-and-exchange is one step. Cited: `collections/lockfree.hfa`, `lockfree.hfa`.
* `Model/StrHeap.lean` - Model of the string storage of /repo/libcfa/src/collections/string_res.cfa: the byte area, the handle list, compaction, and the operations on `string_res` in a shared context (the default). Private contexts (`NO_SHARING`), input and output, and conversions from numbers are not modelled. Memory is a function from addresses to bytes; addresses are natural numbers, 0 is null. Strings are numbered; number 0 is the temporary `pasting` of `assign_`. The handle list is a list of string numbers (the circular list without its header). The share-edit rings are the link functions. `malloc` of a new area places it `gap` bytes after the old area. Accesses outside the area are not detected. Sizes are unbounded integers instead of `int`. Cited: `/repo/libcfa/src/collections/string_res.cfa`, `string_res.cfa`, `string_res.hfa`.
* `Model/StrInput.lean` - # Reading C strings, quoted strings, enumerators and 128-bit integers (`libcfa/src/iostream.cfa`) Memory is the list of the characters from the argument on. Cited: `iostream.cfa`, `iostream.hfa`, `libcfa/src/iostream.cfa`.
* `Model/StrSearch.lean` - String searching and slicing, on the character sequences of strings (Model/StrHeap.lean models where the characters are stored). Lengths and positions are natural numbers or integers: the narrowing of `size_t` to `int` and overflow of `ssize_t` are not modelled. Cited: `string.cfa`, `string.hfa`, `string_res.cfa`.
* `Model/StrStream.lean` - # String streams (`libcfa/src/strstream.cfa`) An output stream writes to a buffer of the user; an input stream reads from one. Cited: `iostream.cfa`, `libcfa/src/strstream.cfa`, `strstream.cfa`.
* `Model/Symbols.lean` - Model of the compiler's symbol table: src/AST/SymbolTable.cpp, src/AST/SymbolTable.hpp. Simplified throughout: a declaration is a record of what the symbol table asks about it, with a number `id` that stands for its address; the mangled name is part of the record (mangling is the subject of C67); a `PersistentMap` is a list of pairs without repeated keys (persistence is the subject of C62), and a null pointer to a map is the empty map; counters and locations are left out. Cited: `impl.hpp`, `proto.hpp`, `src/AST/LinkageSpec.hpp`, `src/AST/SymbolTable.cpp`, `src/AST/SymbolTable.hpp`.
* `Model/Time.lean` - Model of `libcfa/src/time_t.hfa`, `libcfa/src/time.hfa`, `libcfa/src/time.cfa`. `int64_t` values are mathematical integers; every `int64_t` result is passed through `i64`, which is undefined behaviour outside the 64-bit signed range. `uint64_t` values wrap modulo `2^64`. Not modelled: the `double` overloads, `mktime`/`gmtime`/`strftime`. Cited: `iostream.cfa`, `libcfa/src/time.cfa`, `libcfa/src/time.hfa`, `libcfa/src/time_t.hfa`, `time.cfa`, `time.hfa`, `time_t.hfa`.
* `Model/Trans.lean` - Concurrent executions. A model of concurrent code is a function `next`: the effect of an action (a thread together with its choice, if it has one) in a state, or `none` when the action is not enabled. All schedules of unboundedly many threads are the sequences of enabled actions. Each action is one atomic step of the code under sequential consistency: one atomic instruction, one plain access to a shared variable, or one critical section that a lock of a lower layer protects. Cited: .
* `Model/TupleAsg.lean` - Model of tuple assignment, `[a, b] = [c, d]` (multiple assignment) and `[a, b] = c` (mass assignment), as the translator writes them out. src/Tuples/TupleAssignment.cpp the two matchers and the spotter src/Tuples/Explode.hpp/.cpp a tuple-valued expression becomes its components src/Tuples/TupleExpansion.cpp member tuples, unique expressions, tuple expressions src/Tuples/Tuples.cpp which expressions may have an effect src/AST/Expr.cpp 354-366 the statement expression for a tuple assignment Simplifications: the components are scalars (integers); the operator is an assignment operator `?op?` whose effect is to put `op old new` in its left operand and return it; constructors and destructors of tuples, user casts, and the search for the operators (costs, environments) are not modelled; all reference layers of an object collapse to the location finally referred to, the type keeps their number. Cited: `/.cpp`, `Explode.cpp`, `Explode.hpp`, `Expr.cpp`, `TupleAssignment.cpp`, `TupleExpansion.cpp`, `Tuples.cpp`, `src/AST/Expr.cpp`, `src/Tuples/Explode.hpp`, `src/Tuples/TupleAssignment.cpp`, `src/Tuples/TupleExpansion.cpp`, `src/Tuples/Tuples.cpp`.
* `Model/TypeEnv.lean` - The type environments of the resolver: /repo/src/AST/TypeEnvironment.cpp, with the exact unification of /repo/src/ResolvExpr/Unify.cpp:640-672 that they call and that calls them back. Simplifications: a type is a variable, a constant, or two types put together (which stands for pointers, functions, generic instances and the other types that `Unify` compares part by part). Qualifiers, kinds of type variable, assertion sets and widening are left out: every class has `allowWidening = false`, so `commonType` is not consulted, and a successful `unifyInexact` returns its first type as the common type. A class of the `std::list` has an identity, which plays the role of the iterators kept across calls; using an iterator whose class has been erased is the result `undef`. The C++ functions recurse without a bound; here they take a number of calls they may nest, and `more` is the result when that is not enough. Cited: `/repo/src/AST/TypeEnvironment.cpp`, `/repo/src/AST/TypeEnvironment.hpp`, `/repo/src/ResolvExpr/Unify.cpp`.
* `Model/Vector.lean` - Model of the vector with the heap allocator, /repo/libcfa/src/collections/vector.hfa and vector.cfa. The storage is a list of cells, as many as the capacity; a cell is `some v` while it holds a constructed value and `none` otherwise. Access outside the storage is undefined behaviour, and so is reading a cell that holds no value. `triv` says whether constructing and destroying an element are no-ops (`int`, pointers, …); if they are not, destroying a cell that holds no value is undefined behaviour. Storage sizes are unbounded (`realloc` always succeeds, sizes do not overflow). The values destroyed are recorded in `gone`. Assigning an element to a cell without a value (vector.cfa:62) is taken to be construction. Cited: `/repo/libcfa/src/collections/vector.hfa`, `vector.cfa`, `vector.hfa`.
* `Model/Vector2.lean` - Model of the vector with iterators, /repo/libcfa/src/collections/vector2.hfa. Addresses are natural numbers counted in elements; 0 is the null pointer. The buffer starts at `bf`; its cells are a list, `none` for a cell that holds no element yet. Access outside the buffer, and reading a cell without an element, are undefined behaviour; assigning to a cell without an element is taken to construct it. Iterators (`vector_exit` and `vector_permit` objects) are numbered; each family is a function from numbers to item pointers, `none` for numbers not in use. The list of live permits is the domain of that function (list order is irrelevant to what is done with it). `aalloc` returns an address given by the call. Assertions abort. Address arithmetic does not overflow. Cited: `/repo/libcfa/src/collections/vector2.hfa`, `vector2.hfa`.
* `Model/WaitUntil.lean` - The code that the compiler generates for a `waituntil` statement without `else` (src/Concurrency/Waituntil.cpp), and how it is executed (libcfa/src/concurrency/select.hfa). The statement that is generated for a predicate with `or` only is in Model/Select.lean; here only the decision which of the two forms is generated. Cited: `Waituntil.cpp`, `channel.hfa`, `future.hfa`, `libcfa/src/concurrency/select.hfa`, `locks.cfa`, `select.hfa`, `src/AST/Stmt.hpp`, `src/Concurrency/Waituntil.cpp`.
* `Model/WaitforAgg.lean` - The arrays of `waitfor` and `wait` (libcfa/src/concurrency/monitor.cfa:592-595, 464-476, 938-971): storage for the monitors of a `waitfor` and for the threads that a `wait` wakes. Pointers are numbers, the null pointer is 0; an access outside of the storage is undefined. Cited: `libcfa/src/concurrency/monitor.cfa`, `monitor.cfa`.

## Where each property is proved

| id | status | module | model | theorems |
|----|--------|--------|-------|----------|
| C01 | proved | Props/Rational.lean | Rational | C01\_constructors, C01\_canonical\_unique |
| C02 | proved | Props/Rational.lean | Rational | C02\_arithmetic, C02\_division, C02\_assigning, C02\_increment |
| C03 | proved | Props/Rational.lean | Rational | C03\_comparisons, C03\_equality\_is\_identity, C03\_strict\_total\_order |
| C04 | proved | Props/Rational.lean | Rational | C04\_power |
| C05 | partial | Props/Rational.lean | Rational | C05\_setters\_violated, C05\_setters\_partial |
| C06 | proved | Props/Bitmanip.lean | Bitmanip | C06\_is\_pow2, C06\_floor2\_unsigned, C06\_ceiling2\_unsigned, C06\_floor2\_signed, C06\_ceiling2\_signed, C06\_lib\_agrees |
| C07 | proved | Props/Bitmanip.lean | Bitmanip | C07\_leading0s, C07\_trailing0s, C07\_counts, C07\_low, C07\_high, C07\_high1\_bracket |
| C08 | proved | Props/Time.lean | Time | C08\_unit\_make\_get, C08\_unit\_get\_make, C08\_exact\_arithmetic, C08\_division, C08\_time\_difference, C08\_time\_shift, C08\_comparisons |
| C09 | partial | Props/Time.lean | Time | C09\_timespec\_roundtrip, C09\_timeval\_roundtrip, C09\_from\_structs, C09\_struct\_arithmetic\_violated, C09\_struct\_arithmetic\_partial |
| C10 | partial | Props/Time.lean | Time | C10\_itimerval\_alarm, C10\_itimerval\_interval\_violated, C10\_itimerval\_interval\_partial |
| C11 | partial | Props/Time.lean | Time | C11\_duration\_printing\_violated, C11\_duration\_printing\_partial |
| C12 | partial | Props/Random.lean | Random | C12\_xoshiro256pp, C12\_xoshiro128pp\_partial, C12\_splitmix64, C12\_xorshift64\_partial, C12\_xorshift32\_partial, C12\_seed\_violated, C12\_lehmer64\_partial, C12\_wyhash\_kiss\_xorwow, C12\_wyhash\_xorwow\_injective |
| C13 | proved | Props/Random.lean | Random | C13\_reverse |
| C14 | partial | Props/Random.lean | Random | C14\_below, C14\_between\_partial, C14\_full\_range\_violated, C14\_random\_long\_partial, C14\_random\_upto, C14\_random\_unsigned\_partial, C14\_random\_char\_violated, C14\_random\_coverage\_violated |
| C15 | proved | Props/Sort.lean | Sort | C15\_sort, C15\_same\_order |
| C16 | proved | Props/Sort.lean | Sort | C16\_bsearchl, C16\_bsearchu, C16\_by\_key |
| C17 | proved | Props/Queue.lean | Queue | C17\_queue\_is\_list, C17\_membership, C17\_debug\_checks |
| C18 | proved | Props/Stack.lean | Stack | C18\_stack\_is\_list, C18\_debug\_check |
| C19 | proved | Props/Sequence.lean | Sequence | C19\_sequence\_is\_list, C19\_membership, C19\_debug\_checks |
| C20 | proved | Props/Collections.lean | Collections | C20\_queue\_is\_list |
| C21 | proved | Props/Dlist.lean | Dlist | C21\_dlist\_is\_list, C21\_membership, C21\_double\_insert\_aborts |
| C22 | partial | Props/Dlist.lean | Dlist | C22\_traversal\_partial, C22\_first\_last\_violated |
| C23 | proved | Props/Lane.lean | Lane | C23\_lane\_is\_fifo, C23\_pop\_empty\_checked |
| C24 | proved | Props/Alarm.lean | Alarm, Dlist | C24\_alarm\_list, C24\_order\_exists |
| C25 | proved | Props/Vector.lean | Vector | C25\_vector\_is\_list, C25\_out\_of\_range\_undefined |
| C26 | partial | Props/Vector.lean | Vector | C26\_clear\_partial, C26\_clear\_violated, C26\_copy\_violated |
| C27 | partial | Props/Vector2.lean | Vector2 | C27\_vector\_is\_list\_partial, C27\_exit\_blocks\_growth, C27\_index\_violated, C27\_full\_traversal\_violated, C27\_insert\_empty\_violated, C27\_capacity\_zero\_violated, C27\_permit\_violated, C27\_negative\_violated |
| C28 | proved | Props/Array.lean | Array | C28\_subscripts\_designate\_cell, C28\_plain\_subscripts, C28\_cells\_disjoint, C28\_every\_cell\_reached, C28\_out\_of\_range\_reported, C28\_constructs\_each\_cell, C28\_destroys\_each\_cell |
| C29 | partial | Props/Maybe.lean | Maybe | C29\_maybe\_is\_option, C29\_maybe\_destroyed\_once\_partial, C29\_maybe\_default\_violated, C29\_result\_is\_sum, C29\_result\_default, C29\_result\_assignment\_value\_violated |
| C30 | partial | Props/StrGc.lean, Props/StrHeap.lean, Props/StrSearch.lean | StrHeap, StrSearch | C30\_assignment\_stale\_violated, C30\_strings\_are\_sequences\_partial, C30\_values\_partial, C30\_compare, C30\_slice, C30\_slice\_from\_partial, C30\_slice\_from\_violated, C30\_repeat, C30\_strncmp |
| C31 | partial | Props/StrSearch.lean | StrSearch | C31\_find\_from, C31\_find, C31\_empty\_key\_from\_violated, C31\_find\_char, C31\_find\_char\_past\_end\_violated, C31\_includes\_partial, C31\_includes\_empty\_violated, C31\_starts\_with, C31\_ends\_with, C31\_tests\_agree, C31\_include\_exclude, C31\_translate, C31\_find\_range\_violated, C31\_replace\_partial, C31\_replace\_empty\_violated |
| C32 | partial | Props/StrGc.lean | StrHeap | C32\_collection\_preserves\_partial, C32\_whole\_strings\_survive\_partial, C32\_append\_violated, C32\_concatenation\_violated, C32\_parts\_violated, C32\_empty\_string\_violated |
| C33 | partial | Props/StrHeap.lean | StrHeap | C33\_edit, C33\_append\_shared\_violated |
| C34 | partial | Props/Semaphore.lean | Semaphore | C34\_permits\_partial, C34\_P\_blocks\_only\_without\_permit\_partial, C34\_V\_releases\_first\_partial, C34\_Vn\_releases\_all\_partial, C34\_Vn\_too\_many\_violated, C34\_Vn\_positive\_count\_violated, C34\_negative\_initial\_count\_violated, C34\_opposite\_orders\_deadlock\_violated, C34\_front\_empty\_violated |
| C35 | partial | Props/OwnerLock.lean | OwnerLock | C35\_exclusion, C35\_fifo, C35\_no\_waiter\_forgotten, C35\_unlock\_recursive, C35\_unlock\_hands\_over, C35\_lock, C35\_try\_lock, C35\_relock\_violated, C35\_relock\_no\_exclusion\_violated |
| C36 | proved | Props/Futex.lean | Futex | C36\_exclusion, C36\_no\_lost\_wakeup, C36\_no\_deadlock, C36\_wake |
| C37 | proved | Props/Futex.lean | Futex | C37\_exclusion, C37\_no\_lost\_wakeup, C37\_taker\_marks, C37\_no\_deadlock |
| C38 | partial | Props/Mcs.lean | Mcs | C38\_exclusion\_partial, C38\_fifo\_partial, C38\_tickets, C38\_progress\_partial, C38\_spin\_node\_reuse\_violated |
| C39 | proved | Props/HybridLock.lean | HybridLock | C39\_exclusion, C39\_no\_lost\_wakeup, C39\_wakes\_first, C39\_no\_deadlock, C39\_flag\_locks\_exclusion, C39\_flag\_locks\_progress |
| C40 | partial | Props/HybridLock.lean, Props/OwnerLock.lean | HybridLock, OwnerLock | C40\_fast\_block\_exclusion\_partial, C40\_fast\_block\_fifo\_partial, C40\_fast\_block\_hand\_over\_partial, C40\_fast\_block\_notify\_free\_violated, C40\_fast\_block\_timeout\_violated, C40\_recursion\_count |
| C41 | partial | Props/OwnerLock.lean | OwnerLock | C41\_returns\_after\_signal, C41\_unsignalled\_iff\_listed, C41\_signalled\_gets\_lock, C41\_notify\_one, C41\_notify\_all, C41\_wait\_releases, C41\_nodes\_initialised, C41\_notify\_without\_lock\_violated |
| C42 | partial | Props/PthreadTime.lean | PthreadTime, Time | C42\_now\_partial, C42\_inverted\_violated |
| C43 | proved | Props/Channel.lean | Channel | C43\_fifo, C43\_delivered\_once, C43\_insert\_enters, C43\_remove\_takes\_oldest, C43\_capacity, C43\_blocks\_only, C43\_blocked\_consumer |
| C44 | partial | Props/Channel.lean | Channel | C44\_close\_releases, C44\_none\_blocked, C44\_drain\_partial, C44\_insert\_fails\_partial, C44\_insert\_violated, C44\_drain\_violated |
| C45 | partial | Props/Future.lean | Future | C45\_get\_value\_partial, C45\_get\_ready\_partial, C45\_no\_wait\_when\_fulfilled\_partial, C45\_fulfil, C45\_stable\_partial, C45\_exclusion\_partial, C45\_exception\_violated, C45\_double\_unlock\_violated, C45\_try\_get\_violated |
| C46 | partial | Props/Select.lean | Select | C46\_exactly\_one, C46\_at\_most\_one, C46\_conserved, C46\_moves, C46\_woken, C46\_no\_missed\_wakeup, C46\_no\_deadlock\_partial, C46\_self\_violated |
| C47 | partial | Props/Once.lean | Once | C47\_at\_most\_once, C47\_returns\_after\_completion, C47\_all\_woken, C47\_progress, C47\_debug\_check\_violated, C47\_link\_left\_violated |
| C48 | proved | Props/Barrier.lean | Barrier | C48\_full\_generation, C48\_generations, C48\_released, C48\_callback |
| C49 | partial | Props/StackLF.lean | StackLF | C49\_represents, C49\_push, C49\_pop, C49\_pop\_empty, C49\_wasEmpty\_meaning, C49\_other\_steps, C49\_unsafe\_remove\_violated |
| C50 | proved | Props/Park.lean | Park | C50\_no\_abort, C50\_one\_place, C50\_not\_lost, C50\_racy\_case, C50\_park\_needs\_unpark, C50\_two\_ahead\_abort |
| C51 | proved | Props/SingleSem.lean | SingleSem | C51\_sem\_wait\_needs\_post, C51\_sem\_not\_lost, C51\_sem\_post\_wakes, C51\_sem\_post\_result, C51\_oneshot\_wait\_needs\_post, C51\_oneshot\_not\_lost, C51\_oneshot\_no\_block, C51\_oneshot\_post\_result |
| C52 | partial | Props/KFuture.lean | KFuture, SingleSem | C52\_returns\_partial, C52\_no\_dangling\_partial, C52\_wake\_once\_partial, C52\_not\_lost\_partial, C52\_freed\_once\_partial, C52\_early\_return\_violated, C52\_lost\_violated, C52\_abandon\_violated, C52\_zero\_futures\_violated |
| C53 | proved | Props/Monitor.lean | Monitor, Sort | C53\_mutual\_exclusion, C53\_nesting, C53\_wait\_releases, C53\_leave\_nested, C53\_leave, C53\_signal, C53\_wait\_order, C53\_free, C53\_entry\_wakeup, C53\_waiting\_wakeup, C53\_no\_spurious\_wakeup |
| C54 | proved | Props/MonitorOrder.lean | Monitor, Sort | C54\_order, C54\_no\_cycle, C54\_progress |
| C55 | proved | Props/WaitforAgg.lean | Monitor, Sort, WaitforAgg | C55\_aggregate, C55\_model, C55\_wait\_threads |
| C56 | partial | Props/Actor.lean | Actor | C56\_order, C56\_sender\_order, C56\_send, C56\_nothing\_lost, C56\_all\_received, C56\_one\_at\_a\_time, C56\_size\_zero\_violated |
| C57 | proved | Props/Actor.lean | Actor | C57\_one\_place, C57\_slot\_refilled, C57\_ranges |
| C58 | proved | Props/Snzi.lean | Snzi | C58\_nonzero, C58\_zero, C58\_tree |
| C59 | partial | Props/Alloc.lean | Alloc | C59\_fill\_partial, C59\_some\_elements, C59\_whole\_array\_violated, C59\_value\_violated, C59\_size\_overflow\_violated |
| C60 | partial | Props/Convert.lean | Convert | C60\_reject, C60\_numeral\_unique, C60\_long, C60\_fits\_partial, C60\_out\_of\_range\_partial, C60\_invalid\_partial, C60\_int\_violated, C60\_unsigned\_violated, C60\_invalid\_violated |
| C61 | partial | Props/Cost.lean | Cost | C61\_lexicographic, C61\_infinity\_greatest, C61\_infinity\_absorbing, C61\_add\_componentwise, C61\_add\_comm, C61\_add\_assoc, C61\_add\_monotone, C61\_increments, C61\_increment\_abort, C61\_constructor, C61\_constants, C61\_implicit\_constant\_violated, C61\_compare\_infinity\_violated, C61\_overflow\_violated |
| C62 | proved | Props/PersistentMap.lean | PersistentMap | C62\_persistent, C62\_get\_absent |
| C63 | partial | Props/ScopedMap.lean | ScopedMap | C63\_history, C63\_end\_outermost, C63\_iteration, C63\_reachable\_ok, C63\_backward\_partial, C63\_backward\_violated |
| C64 | partial | Props/ErasableScopedMap.lean | ScopedMap | C64\_history\_partial, C64\_erase\_hides, C64\_insert\_violated, C64\_erase\_result\_violated, C64\_erase\_result\_partial, C64\_iteration\_violated, C64\_iteration\_partial |
| C65 | proved | Props/FilterCombos.lean | FilterCombos | C65\_combinations, C65\_distinct, C65\_empty\_undefined |
| C66 | partial | Props/Eval.lean | Eval | C66\_value\_partial, C66\_constant, C66\_variable\_violated, C66\_dimension\_violated, C66\_dimension\_partial, C66\_div\_zero\_violated, C66\_cast\_violated, C66\_unsigned\_violated, C66\_overflow\_violated, C66\_shift\_violated |
| C67 | partial | Props/Mangler.lean | Mangler | C67\_symbols\_partial, C67\_plain\_types\_distinct, C67\_renaming, C67\_type\_variables\_violated, C67\_type\_variables\_pointer\_violated, C67\_generic\_violated, C67\_operator\_name\_violated |
| C68 | partial | Props/TypeEnv.lean | TypeEnv | C68\_one\_class, C68\_lookup, C68\_solvable, C68\_bindVar, C68\_bindVarToVar, C68\_unify, C68\_known, C68\_no\_dangling, C68\_add, C68\_combine\_partial, C68\_combine\_violated, C68\_combine\_diverges\_violated, C68\_combine\_cyclic\_violated |
| C69 | partial | Props/Math.lean | Bitmanip, Math | C69\_signed\_exact\_partial, C69\_signed\_violated, C69\_unsigned\_exact, C69\_unsigned\_mod, C69\_unsigned\_violated, C69\_generic |
| C70 | partial | Props/Math.lean | Bitmanip, Math | C70\_floor\_partial, C70\_floor\_violated, C70\_ceiling\_signed, C70\_ceiling\_unsigned, C70\_ceiling\_div\_partial, C70\_ceiling\_div\_violated |
| C71 | partial | Props/Math.lean | Bitmanip, Math | C71\_log2\_partial, C71\_log2\_power, C71\_log2\_one\_violated |
| C72 | partial | Props/Time.lean | Time | C72\_two\_digit\_year\_violated, C72\_two\_digit\_year\_partial |
| C73 | proved | Props/Collections.lean | Collections | C73\_stack\_is\_list, C73\_push\_check, C73\_dllist\_is\_list |
| C74 | proved | Props/Maybe.lean | Maybe | C74\_pair\_lexicographic, C74\_pair\_trichotomy |
| C75 | partial | Props/Alloc.lean | Alloc | C75\_partial, C75\_large\_violated |
| C76 | partial | Props/Alloc.lean | Alloc | C76\_default\_alignment, C76\_given\_alignment, C76\_reallocarray\_partial, C76\_reallocarray\_violated, C76\_reallocarray\_align\_violated |
| C77 | partial | Props/RangeLoop.lean | RangeLoop | C77\_up\_partial, C77\_down\_partial, C77\_up\_violated, C77\_down\_violated, C77\_index\_type\_violated |
| C78 | partial | Props/Monitor.lean | Monitor, Sort | C78\_arriving\_partial, C78\_stmt, C78\_queued\_partial, C78\_other\_routine\_violated, C78\_subset\_violated, C78\_first\_monitor\_violated, C78\_same\_monitor\_twice\_violated |
| C79 | partial | Props/ActorCount.lean | ActorCount | C79\_stop\_partial, C79\_returns\_partial, C79\_early\_violated, C79\_abort\_violated, C79\_no\_actor\_violated |
| C80 | partial | Props/Select.lean | Select | C80\_fifo\_violated, C80\_fifo\_partial |
| C81 | partial | Props/WaitUntil.lean | WaitUntil | C81\_condition\_partial, C81\_allor\_violated, C81\_guards\_violated, C81\_done, C81\_needed, C81\_once, C81\_kept, C81\_terminates, C81\_no\_missed\_wakeup\_partial |
| C82 | partial | Props/WaitUntil.lean | WaitUntil | C82\_finished\_partial, C82\_futures\_violated |
| C83 | partial | Props/SchedLock.lean | SchedLock | C83\_exclusion, C83\_ids, C83\_progress, C83\_readers, C83\_dangling\_violated, C83\_limit\_violated |
| C84 | partial | Props/HeapAlloc.lean | HeapAlloc | C84\_blocks\_partial, C84\_returned\_partial, C84\_malloc\_wraps\_violated, C84\_calloc\_wraps\_violated, C84\_memalign\_null\_violated, C84\_realloc\_null\_violated, C84\_mallopt\_race\_violated, C84\_stops\_partial, C84\_top\_pad\_violated |
| C85 | partial | Props/HeapAlloc.lean | HeapAlloc | C85\_contents, C85\_kept, C85\_promise, C85\_resize\_0\_violated, C85\_memalign\_0\_violated |
| C86 | proved | Props/HeapAlloc.lean | HeapAlloc | C86\_routines\_end |
| C87 | partial | Props/HeapAlloc.lean | HeapAlloc | C87\_private\_heaps\_partial, C87\_heaps\_lost\_violated |
| C88 | partial | Props/MultiExit.lean | MultiExit | C88\_exits\_partial, C88\_labels\_partial, C88\_choose, C88\_body\_violated, C88\_lost\_violated, C88\_stops\_violated |
| C89 | partial | Props/Except.lean | Except | C89\_exceptions\_partial, C89\_isParent, C89\_accepts, C89\_accepted, C89\_finally\_violated, C89\_rethrow\_violated, C89\_rethrow\_finally\_violated, C89\_reresume\_violated |
| C90 | partial | Props/SmartPtr.lean | SmartPtr | C90\_counter\_partial, C90\_unique\_partial, C90\_last, C90\_counter\_violated, C90\_self\_violated, C90\_pop\_violated, C90\_move\_violated |
| C91 | partial | Props/GenLayout.lean | GenLayout | C91\_leastMul, C91\_size\_partial, C91\_offsets\_partial, C91\_members\_partial, C91\_empty\_violated, C91\_bitfield\_violated, C91\_aligned\_violated, C91\_union\_violated, C91\_array\_violated, C91\_buffer\_partial, C91\_buffer\_violated |
| C92 | partial | Props/ObjLife.lean | ObjLife | C92\_scope\_partial, C92\_end\_partial, C92\_runs\_partial, C92\_throwingConstructor\_violated, C92\_computedGoto\_violated, C92\_labelledExpression\_violated, C92\_loopCondition\_violated |
| C93 | partial | Props/IdleSleep.lean | IdleSleep | C93\_noStall\_partial, C93\_noStallPow\_partial, C93\_lanes\_partial, C93\_idles\_partial, C93\_overflow\_violated, C93\_destroyed\_violated |
| C94 | partial | Props/InitCursor.lean | InitCursor | C94\_initializers\_partial, C94\_wholeStructure\_violated, C94\_staleElement\_violated, C94\_lastElement\_violated, C94\_innerBraces\_violated, C94\_designatedBraces\_violated, C94\_firstMember\_violated, C94\_emptyStructure\_violated, C94\_unnamedBitfield\_violated, C94\_firstDeclaration\_violated, C94\_tuple\_violated |
| C95 | partial | Props/OstreamInt.lean | Ostream, OstreamInt | C95\_plain128, C95\_numeral, C95\_layout, C95\_printed64\_partial, C95\_printed128\_partial, C95\_power\_violated, C95\_signedChunk\_violated, C95\_leftWidth\_violated, C95\_binPrecision\_violated, C95\_hexZero\_violated, C95\_padPrecision\_violated |
| C96 | partial | Props/OstreamSep.lean | Ostream, OstreamSep | C96\_text\_partial, C96\_statement, C96\_tuple, C96\_null\_violated, C96\_first\_violated, C96\_character\_violated, C96\_sepOn\_violated |
| C97 | partial | Props/ArithRes.lean | ArithRes, Cost | C97\_nearest, C97\_common, C97\_reading, C97\_resolved\_partial, C97\_as\_in\_C\_partial, C97\_value\_partial, C97\_nearer\_partial, C97\_bool\_violated, C97\_promotion\_violated, C97\_longlong\_violated, C97\_shift\_violated, C97\_remainder\_violated, C97\_float32\_violated, C97\_safe\_violated, C97\_casts\_violated, C97\_nearer\_violated |
| C98 | partial | Props/IntLit.lean | ArithRes, Cost, IntLit | C98\_typed\_partial, C98\_known\_partial, C98\_int128\_partial, C98\_rejected\_partial, C98\_lu\_violated, C98\_u\_violated, C98\_l\_violated, C98\_binary\_violated, C98\_known\_violated, C98\_half\_violated, C98\_octal128\_violated, C98\_binary128\_violated, C98\_decimal128\_violated |
| C99 | partial | Props/Symbols.lean | Symbols | C99\_lookup, C99\_global, C99\_restored, C99\_tag\_rejected, C99\_type\_rejected, C99\_clash\_partial, C99\_with\_partial, C99\_twice\_violated, C99\_order\_violated, C99\_with\_violated |
| C100 | partial | Props/Special.lean | Symbols | C100\_usable\_partial, C100\_found\_partial, C100\_order\_partial, C100\_builtin\_violated, C100\_order\_violated, C100\_shadow\_violated, C100\_definition\_violated |
| C101 | partial | Props/Gmp.lean | Gmp | C101\_arith\_partial, C101\_sub\_exact, C101\_sub\_violated, C101\_bits\_partial, C101\_xor\_violated, C101\_division\_partial, C101\_division\_violated, C101\_divmod, C101\_divmod\_violated, C101\_compare\_partial, C101\_compare\_reversed, C101\_compare\_violated, C101\_convert, C101\_convert\_violated, C101\_assign, C101\_shift, C101\_print\_violated |
| C102 | partial | Props/TupleAsg.lean | TupleAsg | C102\_multiple\_partial, C102\_values, C102\_sizes, C102\_mass\_partial, C102\_mass\_assign, C102\_swap, C102\_swap\_references\_violated, C102\_sequence\_violated, C102\_mass\_violated, C102\_order\_violated |
| C103 | partial | Props/Coroutine.lean | Coroutine | C103\_control\_partial, C103\_exceptions, C103\_polls, C103\_resume\_pointer\_violated, C103\_cancelled\_unnoticed\_violated, C103\_cancelled\_elsewhere\_violated, C103\_cleanup\_cut\_violated, C103\_cancelled\_cut\_violated |
| C104 | partial | Props/IoUring.lean | IoUring | C104\_once\_partial, C104\_entry, C104\_flush, C104\_no\_crash, C104\_drained\_partial, C104\_granted\_partial, C104\_waiting\_violated, C104\_no\_entry\_violated, C104\_mark\_violated, C104\_refused\_violated, C104\_two\_processors\_violated |
| C105 | partial | Props/PthreadTsd.lean | PthreadTsd | C105\_values, C105\_join, C105\_called\_partial, C105\_all\_called\_partial, C105\_no\_crash\_partial, C105\_runner\_violated, C105\_unjoined\_violated, C105\_null\_destructor\_violated, C105\_other\_destructor\_violated, C105\_main\_violated, C105\_tryjoin\_blocks\_violated, C105\_tryjoin\_raises\_violated |
| C106 | partial | Props/RefLower.lean | RefLower | C106\_value\_partial, C106\_read, C106\_assign, C106\_address, C106\_rebind, C106\_temporary, C106\_argument\_violated, C106\_untaken\_violated, C106\_conditional\_violated, C106\_address\_of\_value\_violated, C106\_double\_address\_violated, C106\_two\_levels\_violated, C106\_returned\_reference\_violated, C106\_address\_of\_cast\_violated |
| C107 | partial | Props/Config.lean | Config | C107\_read, C107\_table, C107\_accepted\_partial, C107\_refused\_partial, C107\_validated, C107\_repeated\_key\_violated, C107\_missing\_hidden\_violated, C107\_which\_value\_violated, C107\_two\_entries\_violated, C107\_refused\_value\_violated, C107\_ruled\_line\_violated, C107\_no\_value\_violated, C107\_key\_at\_end\_violated, C107\_string\_block\_violated, C107\_string\_variable\_violated |
| C108 | partial | Props/Args.lean | Args | C108\_int\_partial, C108\_unsigned, C108\_bool, C108\_args\_partial, C108\_help, C108\_unknown, C108\_duplicates, C108\_help\_text, C108\_empty\_number\_violated, C108\_equals\_violated, C108\_letter\_h\_violated, C108\_short\_only\_violated, C108\_empty\_names\_violated, C108\_no\_columns\_violated |
| C109 | partial | Props/Preempt.lean | Preempt | C109\_section\_partial, C109\_deferred, C109\_prompt, C109\_poll, C109\_returns, C109\_window\_violated, C109\_unpolled\_violated, C109\_depth\_violated, C109\_timer, C109\_tick, C109\_first\_tick\_violated |
| C110 | partial | Props/Enum.lean | Enum | C110\_attributes\_partial, C110\_steps, C110\_loop, C110\_inline\_value\_partial, C110\_convert\_partial, C110\_own\_first\_violated, C110\_nested\_violated, C110\_inline\_value\_violated, C110\_opaque\_inline\_violated, C110\_plus\_violated |
| C111 | partial | Props/StrStream.lean | StrStream | C111\_output, C111\_bounds, C111\_terminated, C111\_cleared\_violated, C111\_words\_partial, C111\_two\_spaces\_violated, C111\_leading\_space\_violated, C111\_newline\_violated, C111\_char\_violated, C111\_end\_violated |
| C112 | partial | Props/StrInput.lean | StrInput | C112\_bounds, C112\_word, C112\_line, C112\_lines, C112\_set\_partial, C112\_quote, C112\_end, C112\_ignore\_end, C112\_getline\_width\_violated, C112\_range\_violated, C112\_quote\_end\_violated, C112\_quote\_char\_violated, C112\_enum, C112\_enum\_sound, C112\_enums, C112\_enum\_newline\_violated, C112\_enum\_prefix\_violated, C112\_int128\_partial, C112\_int128\_overflow\_violated, C112\_int128\_sign\_violated |
| C113 | partial | Props/Cofor.lean | Cofor | C113\_COFOR\_partial, C113\_balance, C113\_overflow\_violated, C113\_cofor, C113\_once, C113\_ends |
| C114 | partial | Props/OldLocks.lean | OldLocks | C114\_exclusion, C114\_fifo, C114\_free, C114\_handoff, C114\_returns, C114\_wait, C114\_wait\_only, C114\_waiters, C114\_notify\_one, C114\_notify\_all, C114\_recursive\_exclusion, C114\_recursive\_fifo, C114\_recursive\_lock, C114\_recursive\_unlock, C114\_recursive\_handoff, C114\_recursive\_wait\_violated |
| C115 | partial | Props/InitLength.lean | InitLength | C115\_string\_partial, C115\_array\_partial, C115\_units, C115\_encodings, C115\_encoding\_violated, C115\_universal\_violated, C115\_list\_partial, C115\_designator\_violated, C115\_flat\_violated |
| C116 | partial | Props/ConstVal.lean | ConstVal, InitLength | C116\_char\_partial, C116\_escape\_violated, C116\_dimension\_violated, C116\_enum\_sound, C116\_enum\_known, C116\_enum\_ends\_partial, C116\_enum\_recursion\_violated |
| C117 | partial | Props/CpuList.lean | CpuList | C117\_visit\_partial, C117\_empty\_violated, C117\_width\_partial, C117\_file\_partial, C117\_long\_violated, C117\_table, C117\_gap\_violated |
| C118 | partial | Props/CpuMap.lean | CpuList, CpuMap | C118\_places, C118\_caches, C118\_groups, C118\_cut\_partial, C118\_width\_violated |

## Axioms

Printed with `#print axioms` for every theorem of MANIFEST.json. No theorem depends on any other axiom.

* propext, Classical.choice, Quot.sound: 443 theorems.
* propext, Quot.sound: 207 theorems.
* propext: 108 theorems: C02\_assigning, C14\_below, C14\_full\_range\_violated, C14\_random\_char\_violated, C29\_result\_is\_sum, C29\_result\_assignment\_value\_violated, C30\_assignment\_stale\_violated, C31\_find\_char\_past\_end\_violated, C31\_includes\_empty\_violated, C31\_find\_range\_violated, C32\_append\_violated, C32\_concatenation\_violated, C32\_parts\_violated, C32\_empty\_string\_violated, C33\_append\_shared\_violated, C34\_negative\_initial\_count\_violated, C34\_opposite\_orders\_deadlock\_violated, C37\_taker\_marks, C38\_tickets, C44\_drain\_violated, C45\_exception\_violated, C45\_double\_unlock\_violated, C45\_try\_get\_violated, C47\_link\_left\_violated, C56\_size\_zero\_violated, C60\_numeral\_unique, C61\_infinity\_greatest, C61\_infinity\_absorbing, C61\_add\_comm, C63\_end\_outermost, C64\_iteration\_violated, C65\_empty\_undefined, C66\_variable\_violated, C66\_dimension\_violated, C66\_cast\_violated, C66\_unsigned\_violated, C66\_overflow\_violated, C71\_log2\_one\_violated, C76\_given\_alignment, C89\_accepted, C89\_finally\_violated, C89\_rethrow\_violated, C89\_rethrow\_finally\_violated, C89\_reresume\_violated, C90\_self\_violated, C90\_pop\_violated, C90\_move\_violated, C91\_empty\_violated, C91\_bitfield\_violated, C91\_aligned\_violated, C91\_union\_violated, C91\_array\_violated, C94\_wholeStructure\_violated, C94\_staleElement\_violated, C94\_lastElement\_violated, C94\_innerBraces\_violated, C94\_designatedBraces\_violated, C94\_firstMember\_violated, C94\_emptyStructure\_violated, C94\_unnamedBitfield\_violated, C94\_firstDeclaration\_violated, C94\_tuple\_violated, C97\_bool\_violated, C97\_promotion\_violated, C97\_longlong\_violated, C97\_shift\_violated, C97\_remainder\_violated, C97\_float32\_violated, C97\_safe\_violated, C97\_nearer\_violated, C100\_builtin\_violated, C100\_shadow\_violated, C101\_xor\_violated, C101\_divmod\_violated, C101\_compare\_violated, C101\_convert\_violated, C101\_print\_violated, C102\_swap\_references\_violated, C102\_sequence\_violated, C102\_mass\_violated, C102\_order\_violated, C103\_resume\_pointer\_violated, C103\_cancelled\_unnoticed\_violated, C103\_cancelled\_elsewhere\_violated, C103\_cleanup\_cut\_violated, C103\_cancelled\_cut\_violated, C105\_null\_destructor\_violated, C105\_main\_violated, C105\_tryjoin\_blocks\_violated, C105\_tryjoin\_raises\_violated, C106\_argument\_violated, C106\_untaken\_violated, C106\_conditional\_violated, C106\_address\_of\_value\_violated, C106\_double\_address\_violated, C106\_two\_levels\_violated, C106\_returned\_reference\_violated, C106\_address\_of\_cast\_violated, C107\_ruled\_line\_violated, C108\_empty\_number\_violated, C109\_unpolled\_violated, C110\_own\_first\_violated, C110\_nested\_violated, C110\_inline\_value\_violated, C110\_opaque\_inline\_violated, C115\_designator\_violated, C116\_char\_partial, C116\_escape\_violated.
* no axiom: 15 theorems: C29\_result\_default, C59\_size\_overflow\_violated, C61\_constants, C61\_implicit\_constant\_violated, C61\_compare\_infinity\_violated, C61\_overflow\_violated, C72\_two\_digit\_year\_violated, C76\_reallocarray\_align\_violated, C99\_twice\_violated, C99\_order\_violated, C99\_with\_violated, C100\_definition\_violated, C107\_string\_block\_violated, C113\_overflow\_violated, C116\_enum\_recursion\_violated.
