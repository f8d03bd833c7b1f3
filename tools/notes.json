{
 "C01": "Element type: mathematical integers (machine overflow of T not modelled).",
 "C02": "Element type: mathematical integers.",
 "C03": "Element type: mathematical integers.",
 "C04": "Element type: mathematical integers; integer power is the squaring loop of math.cfa.",
 "C05": "The code violates this property: both setters take the rational by value, so the caller's object never changes. Negation proved by witness; the part that holds (returned old value, abort on zero) is proved.",
 "C06": "All widths, signed and unsigned readings. verify() (debug only) is the precondition.",
 "C07": "All widths; GCC builtins are modelled by their documented meaning, undefined on zero.",
 "C08": "64-bit range explicit, signed overflow is an undefined outcome. double overloads not modelled.",
 "C09": "Conversions proved; struct +/- do not normalise (negation proved), their denoted value is exact.",
 "C10": "Two-argument constructor does not reduce the interval's microseconds modulo one second (negation proved); the rest is proved.",
 "C11": "Durations strictly between -1s and 0 print without their sign (witness proved); all others except INT64_MIN proved.",
 "C72": "The code prints (year-1900) mod 99: wrong from 1999 on (proved).",
 "C12": "xoshiro256pp (default), splitmix64, wyhash64, kiss_64, xorwow proved for all seeds. One seed each of the xorshifts and lehmer64 gives the absorbing zero state (negation proved). For xoshiro128pp it is not proved that no seed gives the zero state.",
 "C14": "The full range divides by zero, char ranges of mixed sign and ranges wider than 2^31 fail (negations proved).",
 "C69": "-1 to a large exponent is 0 (signed), odd bases to a large exponent are 0 instead of the residue (unsigned); both negations proved. Everything else is exact.",
 "C70": "floor and ceiling_div are wrong for negative numbers (negations proved); ceiling is right for all.",
 "C71": "Argument 1 shifts by the full width (proved); all arguments above 1 proved.",
 "C30": "Values of strings over the string heap model, with enough room that no collection happens (C32 treats collections); slicing, repetition and comparison at value level. The code violates the property for s(start) outside the string and for an assignment that reads a stale address after a collection.",
 "C31": "Violated for empty keys (find with a start, includes of the empty string, replace) and for find with sub-ranges; the positive theorems cover every other key.",
 "C32": "Proved for ordered handle lists, and for all histories of whole-string operations; the _violated theorems show histories with appends, parts of strings and default-constructed strings that lose characters.",
 "C33": "Edits of overlapping share-edit parts refine a document model; appending to a share-edit part violates it.",
 "C81": "Full for the execution of the general form; partial: the compiled condition is right for statements where no right operand of or is a parenthesised or, and (unless the outermost operator is and or there is no and) some clause is enabled. Both exclusions are real defects (C81_allor_violated, C81_guards_violated). waituntil with else is not modelled.",
 "C82": "Proved for resources whose unregister_select$ takes the lock under which clauses are made available (channels, blocking locks); violated for futures, whose unregister_select$ returns at once if the node has been removed from the list."
}