# Formal model of ULAM: design

The code under study is the ULAM compiler and evaluator (C++ in `/repo/src/ulam`, `/repo/include`) and the library code it
ships (`/repo/share/ulam`). This directory holds a Lean 4 model of selected functions and kernel-checked proofs of the
properties listed in `properties.jsonl`. `MANIFEST.json` maps each property to its theorems.

## Layout

`lean/Verif/<Area>/Model.lean` holds the definitions; each cites the file and lines it transcribes. `Spec.lean` says what is
claimed without using the model's helpers. `Lemmas.lean` and similar files hold helpers. `Props.lean` (in larger areas, files
named after their topic) holds the property theorems, named after the property (`C12_...`), with an `example` that meets
their hypotheses. `seeded/LOG.jsonl` records the wrong programs tried against the theorems.

Names: `_partial` marks a theorem that covers only part of its property; its comment says what is missing. Names with
`_fails`, or a name saying what goes wrong, are theorems that the code violates (part of) the property.

## Trusted base

* Lean 4.33.0's kernel.
* The axioms `propext`, `Classical.choice`, `Quot.sound`, as listed per theorem at the end of this file. No axioms of our own,
  no `sorry`, no `native_decide`, no `bv_decide`.
* The transcription of the C++ and ulam code into Lean. Each definition says where it simplifies.
* The MFM library (`Util.h`, `CastOps.h`, `BitVector.h`, `File.h`, the native functions of the ulam library) is *not* in the
  repository. Its functions are modelled by their documented behaviour: `_getLogBase2` = floor log2, `_GetNOnes63(n)` = 2^n-1,
  `DigitCount(n,10)` = number of decimal digits, `BitVector::Read/Write` = big-endian bit fields, `CastOps.h` arithmetic
  saturates, `Random.create(n)` draws uniformly and independently, `MDist.getFirstIndex/getLastIndex` and `EventWindow.aref` use
  the site numbering of `MDist`. The checked search for a part of an object (its name is all that is in the repository,
  `CompilerState.cpp:5754-5762`) is taken to stop the program if there is none (C103, C137, C138).
* C++ standard library: `std::map` = finite map ordered by its comparator, `std::ostringstream << unsigned` = decimal digits,
  `isgraph` etc. in the C locale.
* Machine integers: sizes are explicit (`mod 2^16`, `2^32`, saturation) where the code can reach them; otherwise the bound is
  a hypothesis of the theorem.

## What is modelled, per property

| id | area | modelled code | how proved |
|----|------|---------------|------------|
| C01 | Leximited | `ToLeximited*` (`UlamUtil.cpp`) | decoder, round trip with any continuation |
| C02, C03 | Mangle | `getUlamTypeMangledType/Name`, `getMangledNameWithTypes` | unique decoding from C01, induction on parameters |
| C04 | Mangle | template argument strings of class instances | decoder; collisions as witnesses |
| C05, C06 | Strto64 | all of `strto64.cpp` | equality with an independent numeral semantics |
| C07, C08 | Types | `safeCast` of all primitive types | value sets, case analysis |
| C09, C10 | Types | `resultBitsize*`, `calcNodeType` of arithmetic and shifts | interval arithmetic; undefined behaviour as an outcome |
| C11 | Types | sizes of literals | log2 lemmas |
| C12, C15 | Layout | `packBitsForVariableDataMembers`, sizes, shared base parts | induction on members and on the base table |
| C13, C14 | Walker | `BaseclassWalker`, subclass tests and searches | worklist measure, reachability |
| C16 | Virtual | tables of virtual functions over whole programs and passes | invariant over passes and class orders |
| C17 | Overload | `findMatchingFunction...` over hierarchies | permutation invariance, case analysis of the search |
| C18 - C20 | Strings | `StringPool`, `StringPoolUser`, emitted literals | invariant over histories; C literal reader |
| C21 - C24, C50 | Lexer | all of `Lexer.cpp` except loading of files | grammar, progress measure, longest match; one byte of lookahead as a simulation between two inputs (`Local.lean`) |
| C25, C26 | Source | `SourceStream`, `Locator`, file strings | refinement to one spliced byte list |
| C27, C39, C53 | Control | `ParsingLoopsSwitchStack`, statement parsing, code generation and evaluation of control statements | semantics of gotos against structured semantics |
| C28, C58 | Parser | the expression part of `Parser.cpp` | grammar relation, print/parse round trip, token measure |
| C29 | Token | operator overload names | decoder |
| C30 | Keys | `UlamKeyTypeSignature` order | order laws, map behaviour |
| C31 | TypeTable | all writers of the tables of type numbers in `CompilerState.cpp` | invariant over operation histories |
| C32, C38, C54, C55 | CallStack | `CallStack`, evaluation and generated code of unary, binary, logical, `?:` nodes | refinement, induction on expressions |
| C33, C56, C57 | Packed | `UlamValue` bit fields, pointer stepping, array items and copies | bit-field lemmas |
| C34 | Window | `UEventWindow`, `Coord` | arithmetic over all indexes |
| C35 | ElemType | `ElementTypeGenerator`, `getElementType` | invariant; the step visits all numbers |
| C36 | Util | `HexEscape`, hex constants (C52), file names (C51) | decoder |
| C37 | Registry | registration numbers of classes | invariant over histories |
| C40 | UMod | `UMod.ulam` | modular arithmetic |
| C41, C42, C59 | ByteStream | `ByteStream*.ulam` | queue refinement, digit lemmas |
| C43 - C46, C60, C61 | Chance | `WindowServices`, `WindowScanner`, `SelectorServices`, `Random`, `XTimer`, `RXTimer` | exact probabilities over finite programs that draw numbers; potential function |
| C47, C48, C62, C63 | Stdlib | `ColorUtils`, `EventWindowBuffer`, `C2D`, `MDist` distances, `Telomere` | arithmetic, invariant |
| C49 | Fold | labelling and folding of arithmetic on literals | induction on expressions |
| C64, C65 | Default | `buildDefaultValue`, `getDefaultValue`, class and array initialization lists | induction on members, bases and lists over the layout of C15 |
| C66 | Scope | symbol tables of blocks, `alreadyDefinedSymbol`, labelling of `NodeIdent`/`NodeConstant`/`NodeVarDecl`, the loop of passes | invariant of each name between passes, potential function for the number of passes, simulation of an environment-passing resolver |
| C67 | Cast | `NodeCast::eval`/`genCode`, `cast`/`castTo32`/`castTo64`/`explicitlyCastable` of the primitive types, `castMethodForCodeGen`, `needsACast`, `makeImmediate` | case analysis to a common conversion, specification by nearest number; library conversions are a hypothesis shown satisfiable |
| C68 | Oper | `NodeTerminal::fitsInBits`/`fitsInBits32`/`64`, `convertForthAndBack(Long)`, `safeToCastTo` of constants | conversion forth and back equals range membership (nearest number moves toward zero), then C67 |
| C69 | Oper | types, checks, `eval` and `genCode` of comparison, `&` `\|` `^`, `&&` `\|\|`, `?:` | common type shown to hold both values, library functions are a hypothesis shown satisfiable; acceptance characterised by ranges |
| C70 | Order | `eval`/`evalToStoreInto` and `genCode` of operators, assignments, `?:`, calls, as an evaluator and as a compiler to instructions over temporaries | compiler shown correct against right-first semantics (induction over code with fresh temporaries); frame and commutation lemmas give agreement when operands do not interfere; witnesses where they do |
| C71 | Subscript | index types, constant test, offsets of `eval`/`evalToStoreInto`, the test and bit position written by `genCode`, string bytes; uses `Packed` (C56) | arithmetic of the wrapping types, library conversions are a hypothesis shown satisfiable; failures stated for all arrays |
| C72 | Arith | `calcNodeType` of `+ - * / %`, the casts of the operands, the evaluator's computation and zero test, the cast of quotient and remainder, the library call in generated code; uses `Oper` (C68) for the operand casts | both sides reduced to the library function on preserved numbers; clamping composes (`nearest_trans`); exactness from C09; acceptance by cases on kinds and words; failing pairs stated for all wide sizes |
| C73 | Arith | `calcNodeType` of shifts, operand casts, evaluator (distance read with the result's length) and generated call | casts leave no bits above their type (`cast_clear`), so reading with another length is a remainder; witnesses for all values of at most four bits |
| C74 | Arith | `- ! ~ +`, `op=` of the three families, `++`/`--`: typing, evaluator, generated call | as C72; acceptance from C68 for constants and C07 for variables |
| C75 | Proxy | constructors' limits of primitive types, `setConstantValue`, `setConstantTypeForNode`, evaluator and generated register of such constants | case analysis of the word and full-word formulas against greatest/least over all stored values; library conversion a hypothesis shown satisfiable |
| C76 | Proxy | `getSizeofUlamType`, `getTotalBitSize`, `lengthof` incl. constant strings; uses `Strings` (C19) | products as `s32`; string lengths from the pool invariant of C19 |
| C77 | Proxy | `getTypeBitSizeInParen`, `getArraysizeInBracket`, `setSizesOfNonClassAndArrays` | acceptance as an equivalence; failures stated for all wrapping totals and all wide size types |
| C78 | Related | the functions written by `genCodeBuiltInFunctionGetRelPos…`, `…IsMethodByRegistrationNumber`, `…NumberOfBases`, `…NumberOfDirectBases`, `…GetOrderedBaseClass`, `…IsDirectBaseClass` | lookup in the table of cases refines the ancestor relation; places equal those of C15; enumeration is a duplicate-free listing |
| C79 | Related | `NodeConditionalIs` and `NodeConditionalAs`: `eval`, the tests generated, and the kinds accepted | equivalence with self-or-ancestor under a consistency relation of pointer, value and object |
| C80 | Related | the pointers made by `NodeCast`, `NodeIdent` (`self`, `super`, data members), `NodeMemberSelectByBaseClassType`, `NodeConditionalAs` | invariant "position = start + place" preserved by each operation; failures stated in general with a witness |
| C81 | Driver | `compileFiles`, `checkAndTypeLabelProgram`, `resolvingLoop` and the message handler; a stage is an arbitrary list of messages and an arbitrary answer | invariant of the handler (counted = reported since the clear, every error shown) through all stages; both directions of the returned number |
| C82 | Driver | `ErrorMessageHandler` | trace of uses vs. state: output = first reports with a heading, count = errors since the last clear |
| C83 | Driver | `compileFile`, the loop over unseen classes, the table of classes under arbitrary parser events, `AddClassName` | invariant "undeclared ⇒ unseen, pending or without a file"; termination by the number of files not yet pushed; counts of parses |
| C84 | Sizing | sizing of the table of classes over several rounds, with arrays, unions, shared bases, cycle marks and 32-bit sums | relation `Sized` (own bits, total bits); invariant of the type tables for any rounds; progress by rank of need; counterexamples where the code is wrong |
| C85 | Sizing | the same | `Sized` is well-founded; a round without an error sizes a closed set of classes, which no cycle can have |
| C86 | Dispatch | `NodeFunctionCall`: the flag for the effective self, the lookup of the pointer's name, the class whose table is used (evaluator and generated code), with the tables of Virtual and the pointers of Related. Not: calls by registration number, array items and casts as left sides, `genHiddenArg2`, the `UlamRef` library | the flag is characterized by the left side; the pointer stays at a part of the object; with C16 and C80 |
| C87 | Constness | the flags `storeIntoAble`/`referenceAble`/constant of every kind of expression, argument matching, reference initialization, return; a small-memory semantics of the generated code. Not: custom arrays, constructors, variable arguments, `self` in `as`, fit of types otherwise | a place that may be stored into is open (induction on the expression); running keeps the objects apart (induction on fuel over expressions, arguments and statements together); five ways around it run |
| C88 | Frame | `calcMaxDepth` of every kind of node as what it adds to the depth, with the additions of `u32`; the slots given; the size of a frame; `store`/`load` of the call stack. Nodes without a depth of their own are leaves | induction over statements: variables in scope end below the depth; the computation with wrap is the one without while it fits; depth ≤ slots · 2^choices; doubling by induction on the number of choices |
| C89 | Frame | the layout of a call: arguments, `self`, context, place for what is returned, frame pointer, frame; parameter slots; popping. Types are the number of slots; evaluation of the arguments is given | list arithmetic for any number and sizes of arguments |
| C90 | Frame | local references of the evaluator: pointer kept with the symbol, relative or absolute; reference parameters made absolute; conditionals and calls. Not: references in the generated code, casts to sub- and base classes | simulation by induction on fuel; functions of lower rank leave the pointers of the caller; counterexample with recursion |
| C91 | Consts | named constants of classes and file scopes: first pass, resolving rounds with their limit, labelling and folding of names, operators and `?:`; operators and stores are any partial functions. Not: types that wait for constants, arrays and classes as constants, templates, inserted casts | invariant over all passes (values are worth the expressions), stuckness invariant for circles, plan of passes by induction for acceptance; chains past the limit and circles of file-scope constants as counterexamples |
| C92 | Templ | parameter lists, argument lists of uses after and before the template, default values, renaming of temporary arguments, scope in which an argument is folded. Not: types of parameters, member symbols copied into a stub | both paths computed to the same canonical stub by induction on the argument list, the stub compared with an independent account of what each parameter stands for; missing commas as counterexample |
| C93 | Merge | the loop of instantiation with its tables by type number and by text of the arguments, merging of keys and aliases, the count that guards against looping. Waiting for base classes is a given answer. Not: copies of stubs, references | invariant over all histories (owners, symbols, aliases, counts); injectivity of the texts from C04; many close uses of one instance as counterexample |
| C94 | StmtParse | parseBlock, parseStatements, parseStatement(AsBlock), the control statements, cases, simple statements over tokens (an expression or declaration is one token), with the `as` flag, error counts and skipping after errors | Soundness by induction on the depth of calls (no error and tokens left imply the text is the writing of the tree); completeness by induction on the tree; termination by a measure on the tokens left; meaning by composition with C27. Partial: a stray `as` |
| C95 | Returns | labelling of return statements (scalar/array, Void, references, casts), checkFunctionReturnNodeTypes, the result of a call in the code and in NodeBlockFunctionDefinition::eval; control flow as in C27, with the place of the result added to the store | Simulation of the statements with values by the lowered ones (mutual induction, loops by induction on turns), composed with C27 and C53. Partial: bodies that, by their form, do not come to their end; evaluator under the conditions of C53. The rest fails: C95_falls_off_fails |
| C96 | Member | alreadyDefinedSymbol for a class block and the searches it is made of, the search for function names, the check for shadowed data members; the walk over bases is that of C13. Not modelled: hazy (incomplete) classes, blocks inside functions (C66) | The searches are shown to be the first / all classes of the walk of C13 that have the name; paths through silent classes by induction along the walk. Partial: what is found is hidden by nothing when each class between is the base of one class only. The rest fails: C96_hidden_fails, C96_ambiguous_fails |
| C97 | Preparse | Preparser (use, load, ulam, names of files, unread), Parser::getNextToken/unreadToken/peekFirstToken, setFileUlamVersion; tokens instead of bytes (C22, C23, C26), files end with white space, the preparser with fuel (a file that loads itself is never read to the end) | Expansion of texts as a separate inductive relation; the preparser follows it by induction, whatever is open below; the parser layer by induction on the tokens. Partial: comments never directly follow one another after expansion; versions below 2^32. The rest fails: C97_comments_fails, C97_version_fails, C97_version_at_end_fails, C97_names_fails, C97_first_fails |
| C98 | RefRet | the test a returned reference has to pass, on the frames of the model of calls; the making absolute of pointers that are passed | for every function, stack and arguments: pointers to the frame are refused, those to the caller's slots are kept and lead to the same slot; a parameter passed by value is returned without complaint (`C98_parameter_fails`, `C98_parameter_passed_fails`), so partial |
| C99 | ClassCast | the forecasts and `explicitlyCastable` of class types and `Atom`, the checks of cast nodes, `makeCastingNode`, the `cast` functions of the evaluator and casts from references (types and outcomes, not the bits), on the inheritance of `Walker` | exact characterisations of what is accepted, for every hierarchy without cycles; accepted conversions of values evaluate to the type asked for up to 71 bits; `C99_constness_fails`, `C99_downcast_value_fails`, `C99_eval_transient_fails`, `C99_array_explicit_fails` show where the claim does not hold, so partial |
| C100 | ClassIter | `ClassBaseIterator`, `copyClassDataMembers` and `copySharedData` of the standard library; the native functions are a parameter | the loops are shown equal to a walk over the filtered list, by induction on what is left; the copy by induction on the list with the positions of the shared classes disjoint in the target |
| C101 | FuncTable | the tables of functions of a class: keys while parsing, adding an overload, the check for duplicates and return types over the class and its ancestors | keys by the injectivity of numerals and separators; the check by an invariant of the table of signatures, by induction on functions and on the walk over the hierarchy |
| C102 | CustomArray | `aref` functions: the flag, the item type, the count of matches and the check, over a tree of bases | mutual induction over classes and lists of bases; each search is shown equal to a list function on the lineage |
| C103 | GenPos | the positions the generated code computes for chains of members: the constant part, the part from the first member on, when the class of the object is asked and for which class | the loops by induction on the chain against a relation that adds positions; the layouts of C15 are shown to be as assumed |
| C104 | VtGen | the tables of virtual functions in the generated code: entries, starts by registration number, enumerators, the accessors, the arguments of a call, calls decided when compiling | on the tables of C16, whose starts are shown to have no class twice; the enumerator of a name is its index by injectivity |
| C105 - C107 | Storage | `BitStorage` checksums, `OnceT`, `MDist` angles and roots | lists of bits; majority and count of flips; the whole table against `arccos`, by bounds of the cosine at 8 angles |
| C108 | Inherit | `checkMultipleInheritances`, the block types of bases, the table of bases; types are an abstract table, what mapping and aliases come to is a parameter | three loops as sums; induction on levels of inheritance and the order |
| C109 - C111 | Decl | `NodeVarDecl` and `NodeVarRef`: `checkAndLabelType`, `safeToCastTo`; lists of initial values; types and answers of the initial value are parameters | case analysis of the decision along each path; induction on lists |
| C112 | Overload | `noteAmbiguousFunctionSignaturesInAClassHierarchy`, `noteAmbiguousFunctionSignatures` (in `Note.lean`) on top of the model of the look-up (C17) | invariant of the walk over classes (count = sum of the map, each entry right); simulation of the look-up by the walk for the notes where declaring classes are unrelated or there is only one |
| C113 - C115 | Dm | `NodeVarDeclDM`: `checkAndLabelType`, `safeToCastTo`, `foldArrayInitExpression` for a single value, `updateConstant(32,64)`, `checkDataMemberSizeConstraints`; labelling as a variable, folding and evaluating the expression and the conversions of the library are parameters | case analysis against a separate description of what is allowed; the conversions from what is assumed of the library (`Lib.Good`) |
| C116 - C118 | ValText | `SymbolWithValue`: `getLexValueAsString`, `getHexValueAsString`, `printPostfixValueArray`, `printPostfixValueScalar`, `convertValueToAPrettyString`; `File::write_*`; the part of `NodeListArrayInitialization::genCode` that writes the value; the values in the list of members | a separate reader of C++ lists and of literals; induction over words and digits; prefix-freedom from C01 |
| C119, C120 | Select | `NodeMemberSelect`: `checkAndLabelType`, `checkStoreIntoAble`, `checkVarUsedBeforeDeclared`, `getConstantMemberValue`, `getPositionOf`; `NodeIdent::getPositionOf`; labelling of the sides is a parameter, classes are packed | case analysis; a separate relation for where a member lies, induction over the chain of selections |
| C121, C122 | ConstRead | positions and lengths in the code that reads constants of functions and constant arguments, items included; qualification of the names of constants; `UlamRef` is taken to read as many bits as told from where told; C++ name lookup as a small specification | case analysis against the relation of C120; a fold over ancestors |
| C123, C124 | BaseCopy | the generated `read` and `write` of references to scalar quarks and transients: whole when the effective self is the class, else own members and shared bases piece by piece, positions in 32 bits; the MFM methods are taken to copy the bits asked for, `BitVector(u32)` to hold the number in its last bits, `BitVector(u32*)` to take the words in order | induction over the list of bases, against a relation between bits of the value and bits of the storage |
| C125, C126, C127, C128 | Immed | the C++ types and methods chosen for values and items, the generated `read`, `write`, `readArrayItem`, `writeArrayItem`, the loops in two constructors, which forms of `read` are declared and called; structs of primitives, Strings and quarks; the MFM vector is taken to hold big-endian numbers and to fail out of range; the constructor from `u64` is proved for any number of items (the code makes it for two and three) | case analysis over word sizes, induction over bits, items and rounds of the loops |
| C129 | AsRef | the constructors of reference structs, and which of them, with which arguments, `NodeVarRefAs` calls for each kind of operand; positions in 32 bits; what the library does to `PosToEffectiveSelf` is a parameter with stated assumptions (kept track of inside one object, zero for a storage) | case analysis and arithmetic; reading by C123 |
| C130, C131 | SelfCopy | what is generated for `self` as a value and for `self = v`: by the plain reference `ur`, its length in functions of base classes, the two branches on the class of the object, the pieces for own members and shared bases; bits and library as in BaseCopy | equal to the reading and writing of BaseCopy where that holds, hence C123 and C124; negations for all classes otherwise |
| C132 | ClassInfo | the generated switch on member numbers and the count: the walk over own members, direct bases and other shared bases with the running counter, and the positions written; class tables and layouts as in Layout | induction over the lists of members and classes; completeness from C78, places from C12 and C15 |
| C133 | EvalCopy | the loop over a base and its ancestors that copies their bits between two objects, its limits, the cast to a base class and the assignment to one; walk and layouts as in Walker and Layout, bits as lists, atoms by the class of the element in them | induction over the classes visited, with C13 (which), C15 (places apart) and the offsets of C132 |
| C134 | VarInit | `NodeVarDecl::eval` and its two helpers, `makeDefaultAtom`, `makeImmediate` and relatives, `getDefaultAsPackedArray` (as u64), `slotsNeeded` | the packed default of an array item by item (bits of the shifted sums), the places of items from the pointers of C33; partial: false for arrays of classes of 65 to 71 bits (`_fails`) |
| C135 | VarInit | the same with a ready initial value, `getInitValue`, `getArrayItemInitValue` | cases on the kind and size of type; partial, with four theorems on the types for which it is false (`_fails`) |
| C136 | ConstSlot | `assignConstantSlotIndex` and the two helpers that fill the constant stack | items and places as for C134/C135; partial, with three theorems on the types for which it is false (`_fails`) |
| C137 | RefInit | `genCodeReferenceInitialization` for variables, references and `self`, numbers and classes, and the position in the `UVPass` it starts from, on top of the model of C103 | Members of variables: always right. From a reference: numbers if the first member is an own one or the only one; classes if and only if no later member is inherited at a position other than 0. Failures proved in general for the rest |
| C138 | CastPos | `genCodeCastDescendant` and `genPositionOfBaseIntoATmpVar` for variables, references and `self` and their members (quarks and transients), and the check before a cast to a derived class, on top of the model of C103 | Whole variables and references, up and down: always right, or the program stops. Members: right if each later member is declared by the type of the one before (induction on the chain, C103). Failures proved in general for the rest |
| C139 | InitParse | `parseArrayOrClassInitialization`, `parseArrayItemInit`, `parseClassInstanceInitialization`, `parseClassItemInit` on tokens; an expression is one token, as for C94 | Against a grammar given as an inductive relation: all that it allows is read back (mutual induction on the derivation), in one way only; without arrays nothing else is accepted (induction on the calls). Stops, with an end of the tokens left. Failures for arrays proved |
| C140 | CallParse | `parseRestOfFunctionParameters`, `parseFunctionParameterDecl`, the checks of `makeFunctionBlock`, `parseRestOfFunctionCallArguments` on tokens; a type and an expression are one token each | Against the notation: read back, and nothing else accepted than a looser notation (induction on the calls, errors never become fewer). Partial because the commas are not checked |
| C141 | RefRec | `NodeVarRef::eval`, `NodeIdent::evalToStoreInto`, `makeUlamValuePtr` for references, the making absolute of arguments, frames; an execution is a tree of declarations, uses and calls | Against a semantics in which each activation has references of its own: induction on the execution, with the pointers kept with the symbols related to the places of the current activation. Partial because of recursion |
| C142 | AbsAssign | `CallStack::assignUlamValue` and `assignUlamValueAtAbsoluteIndex`, with `putDataIntoAtom` as modelled for C33, and the following of pointers | Both against a description of what is stored and what is left alone, and against each other; the cases in which they differ are refuted in general |
| C143 | EvalStmt | The `eval` of function calls, function definitions, statements, returns, declarations and simple statements, on the stack of C32 | Mutual induction on expressions and statements, against what they are worth; the case of lists that are not known is refuted in general |
| C144 | EvalCtl | The `eval` of if, while, break, continue, return and statements, on the stack of C32; expressions, their values and effects are given | Soundness by induction on the depth, with the stack as invariant; completeness by induction on the run |
| C145 | SlotArray | `incrementPtr`, subscripts and `assignArrayValues` for arrays with one slot for each item, on both stacks | Arithmetic of indices with the 16 bits of a slot; the copy by induction on the items, for arrays apart from each other or the same; stores outside, and negative subscripts, are refuted in general |
| C146 | SymTab | `SymbolTable` as a list of names and symbols, with the ids of the symbols; the renaming of arguments in `fixAnyUnseenClassInstances` | That symbols are under their ids as invariant; induction on the table merged or copied, and on the parameters |
| C147 | UtiMap | The map of types in the resolver of a class, and the requests of `mapIncompleteUTIForAClassInstance` for types that are copied | Induction on the requests, with the map as invariant: no two types with the same copy, none not yet made; induction on the map copied |
| C148 | Kin | The search for a stub among a class and its ancestors, the set of registration numbers of a class and its ancestors, and the search for what a type is mapped to, on the walker of C13 | Induction on the walk: the loops depend only on the classes met, which are the class and its ancestors by C13 |
| C149 | PackKin | The attempt to pack a class and its ancestors: the answer, and the classes tried in order, on the walker of C13 | Induction on the walk and on the classes met; the answer yes is refuted for every hierarchy with an empty place for a superclass |

Not modelled: parsing of declarations and classes, template instantiation and its repeated passes over node trees, name
resolution of functions beyond C17, generation of C++ text other than what is named above, the drivers, the Perl scripts, and
the MFM library.

## Findings

Places where the code does not do what the property says. Each is a theorem.

* C03, C04: class values of 8 or more bits, and empty strings in arrays, give equal keys for different arguments.
* C06: a leading minus sign is accepted in an unsigned literal and negated modulo 2^64.
* C08: `Unary`/`Bool` to `Bits` is not transitive; neither are constant references.
* C09: unsigned differences, and the most negative number divided by -1, do not fit the result type.
* C10: shift amounts of 31 bits give a negative size, of 32 bits an undefined shift in the compiler.
* C11: zero and negative powers of two get a bit more than needed.
* C15: a union's bases are laid over its members.
* C16: a virtual function beginning in two bases is not reported and dispatch may miss the most specific override. (Hypotheses:
  signatures unique per class, bases defined and acyclic, at most 99 passes.)
* C17: an exact match in a base can lose when the calling class has another base; an ambiguity can be hidden by a later class.
* C19: the index check of user strings accepts too much.
* C22: byte 255 in a file is answered as end of file.
* C23: a comment directly after a block comment, or after a star, is not transparent; a slash after a structured comment is lost.
* C24: two dots, a shift operator at the very end, a zero second byte are not lexed by longest match.
* C25, C26: 16-bit line and column counters; loading again a file that is still being read loses its rest.
* C27: labels of loops are always emitted, as an assertion counts a use.
* C28: `is T` directly before `&`; a number followed by a postfix.
* C31: asking twice for a type can give different numbers when a lower number of unknown size is completed in between; a
  signature carrying a class instance number gets a new number at each request; number 65536 is an assertion failure.
* C33: an item store into a 65-71 bit array variable on a stack replaces the array.
* C34: the validity test adds coordinates without absolute values: 61 of 81 indexes are valid instead of 41.
* C35: the request after all 65534 types never returns.
* C40: in the dead band each value is greater than the other; `isComparable` is always true; the modulus is `maxof`.
* C42: base 36 is refused. C59: a full writer loses bytes that are counted as written.
* C43: 8-bit counters saturate. C44: `categorize` adds the wrong weight and `initScan` keeps old maxima.
* C45: keys are clamped to `Int(16)`; ties are not fair. C46: ranges of 2^31 or more values never answer the upper ones.
* C47: `brighter(black)` has alpha 0. C48: a symmetry change between save and restore moves atoms.
* C49: unsigned differences below zero fold to zero; a negative quotient or remainder under a minus sign, a division or a
  remainder is read with the wrong length (`-(-7 % 2)` folds to `-7`); a remainder by a 32-bit unsigned constant is cut.
* C50: shown strings do not escape double quotes; short octal escapes merge with a following digit.
* C51: `A.ulam.ulam` is refused.
* C53: the evaluator skips the step of a `for` on `continue` and runs on after a `break` in a switch.
* C55: generated code runs the right operand of a binary operator first, the evaluator the left one.
* C56: negative subscripts are read, stores beyond a member array and positions that wrap 8 bits are accepted.
* C57: arrays of quarks and items of more than 32 bits are not copied right.
* C61: trigger levels that do not fit the counter, and multipliers shifted out of 32 bits.
* C62: distances clamp; the squared length of (-32768,-32768) is wrong. C63: the documented colony size is wrong.
* C67: casting a `Bool` or `Unary` to its own type normalises the bits in the evaluator and is skipped in generated code;
  `String` to `Bits` and to `Bool` over 32 bits are accepted but not evaluable; `Bits` over 32 bits to `String` aborts the
  evaluator.
* C68: a `Unary` constant is measured by its number when it becomes `Bits`: one whose set bits are not the low ones is accepted by
  `Bits` too small for it and loses them.
* C69: `c ? a : b` with `Unary` branches of different sizes is refused for all sizes above 2 (the common type is computed with the
  size of the binary logarithm but the kind stays `Unary`), with `Bool` branches of different sizes or a `String` beside a number an
  assertion fails; `&&`/`||` on `Bool`s over 32 bits fail an assertion when evaluated and are fine in generated code.
* C70: the evaluator takes the left operand, the place of an assignment and the *last* argument first; the generated program takes
  the right operand, the assigned value and the *first* argument first. `x + (x = 5)`, `a[i] = (i = 1)` and `f(x, x = 5)` differ
  (`C70_operator_fails`, `C70_assign_fails`, `C70_arguments_fails`). Arguments beyond the parameters of a function with variable
  arguments are evaluated only by the generated program (`C70_extra_fails`). For expressions whose operands do not interfere both
  agree (`C70_agree_partial`).
* C71: the generated test is `index >= size`, so every negative index passes and goes to the bits before the array
  (`C71_negative_fails`). A constant index is tested at compile time only, with `>` instead of `>=`: the size itself is accepted and
  goes to the bits behind the array, and so is -2, the code for an unknown size (`C71_constant_fails`). The evaluator drops the upper
  half of a 64-bit index (`C71_long_fails`), aborts when storing with one (`C71_long_store_fails`), and takes `s[-1]` of a string with
  an `Int(4)` as byte 15 (`C71_string_negative_fails`).
* C72: `Unsigned(32) / Int(n)` and `Int(n) % Unsigned(32)` with n over 32 are cast to `Int(32)`, one bit short of the
  `Unsigned`: 4000000000 / 1 is 2147483647 (`C72_quotient_fails`, `C72_remainder_fails`). These are the only such pairs of
  variables (`C72_division_within`).
* C73: the evaluator reads only as many bits of the distance as the result has, so a value of at most four bits shifted right
  by 2^n stays what it is, while the generated program gives zero (`C73_narrow_fails`, for `<<=` and `>>=`
  `C74_assign_shift_fails`). `x << y` with `Unsigned(31) y`, or wide `x` and plain `Unsigned y`, has no size (`C73_size_fails`).
* C74: `x / 0` is an error for the evaluator, `x /= 0` and `x %= 0` are not guarded (`C74_assign_zero_fails`).
* C75: `String.maxof` and `String.minof` are let through; generating code for them fails an assertion (`C75_string_fails`).
* C76, C77: the limit of 8192 bits is compared with a total in 32 bits, so `Unsigned(64)[67108865]` is accepted
  (`C77_total_fails`); its `sizeof` overflows an `s32` (`C76_sizeof_fails`). Of size expressions of more than 32 bits only the low 32
  bits count: `Int(4294967300LL)` declares `Int(4)` (`C77_wide_fails`). `T[-2]` is taken for a size not yet known (`C77_unknown_fails`).
* C79: in the evaluator `t as T` is false when `T` is the class of the transient `t` itself (`C79_transient_fails`); the generated code
  says true.
* C80: `super` in a function of a base class points into the wrong place: the place of the superclass is looked up in the base, not in
  the object (`C80_super_fails`). `as` to an element does not leave the part the reference was to (`C80_as_element_fails`), nor does `as` for
  an object stored in an atom (`C80_as_atom_fails`), nor a member of another base reached by a reference to a part of a quark or
  transient (`C80_member_fails`).
* C81: `main` returns the number of errors; the caller sees its lowest eight bits, so with 256 errors (or 512, …) `culam` exits
  with 0 and no code (`C81_exit_fails`, with a complete run). Waits of templates after the hundredth round are no errors. The
  error count is cumulative over files, so the sum `perrs` counts errors more than once; only its being 0 is used.
* C83: a file asked for that another file `load`s is taken as read; if it has no class of its name nothing is said and the
  compilation succeeds without it (`C83_asked_fails`). Names with an underscore are refused on the command line though the
  language has them.
* C84: the bits of an array are multiplied in 32 bits before they are tested: a quark with `Int(32) a[134217728]` is given 0 bits and
  no error (`C84_wrap_fails`). An array type that gets its length while the size of its item is unknown counts its length twice
  (`C84_early_fails`). A union with a data member whose class is a base class, before that class in the table, loses the size of
  the member as a base, since `getMaxVariableSymbolsBitSize` does not save it as the summing function does; an assertion fails at
  the derived class (`C84_union_fails`). Not modelled: templates (sizes per instance), names still to be resolved (given per round
  by `View.typed`), the wrapping of the sum over bases. `Int a[-2]` is read as an array of unknown length, since -2 is the
  code for it.
* C85: a class with an array of itself is never reported by the sizing (`C85_array_fails`); only the limit of the resolving loop
  ends the compilation.
* C86: the evaluator looks up, in the scope of the call, the name noted in the pointer to the object, which may be the name of
  another variable. `x.m.f()` runs the function of another class if a variable `m` of a subclass is in scope
  (`C86_capture_fails`); a virtual call on a reference parameter that has the name of the variable passed aborts
  (`C86_parameter_fails`); in the block of `x as Base` the function gets a `self` displaced by the place of the base
  (`C86_as_fails`). A call on a reference returned by `x.g()`, `x` no reference, goes by the declared class in the evaluator and
  by the object in the generated code (`C86_returned_fails`).
* C87: five ways to change what was given as a constant pass the compiler: a choice is storable whenever its condition is no constant, whatever its branches are (NodeQuestionColon.cpp:308-309); a cast of a part of a constant reference to a reference (NodeCast.cpp:371-380 asks only whether the part is a constant); `storageof` and `atomof` (NodeStorageof.cpp:225-229); a returned reference to a part of a constant reference parameter (NodeReturnStatement.cpp:182-249); the name of an as-conditional about a constant reference, which is a fresh name that is no constant (Parser.cpp:2131-2147). A character of a string stays hazy for ever (NodeSquareBracket.cpp:443-451), so it cannot be passed even for a constant reference.
* C88: a choice `c ? a : b` adds the depth after its branches to the depth before them, which they already contain (NodeQuestionColon.cpp:318-330; likewise NodeControlIf.cpp:116-129, where the enclosing block hides it): each statement with a choice doubles the depth of all that follow in its block. A function with twenty such statements asks for a million slots per call; with thirty-one the `u32` wraps to zero and the next variable shares its slot with the first (`C88_choices_fail`).
* C90: the evaluator keeps the place a local reference was bound to in the symbol of the reference (SymbolVariableStack.cpp:58-67), of which there is one for all running calls of the function: after a recursive call the reference of the outer call stands for what the inner one bound (`C90_recursion_fails`).
* C91: a chain of more than 101 constants each defined by the next one (declared in that order) is refused, since a round settles one of them and there are 100 rounds; declared the other way round any length is accepted. Constants of a file scope that are defined by each other are accepted without a message: a wait is turned into an error only while labelling a class, and what remains unresolved is reported as information only.
* C92: the commas between template arguments and between template parameters are optional (`Foo(1 2)` is read as `Foo(1, 2)`), and a comma before the closing parenthesis is let pass after a parameter though not after an argument.
* C93: from type number 101 on, merging is refused with "Circular reference or dependencies too complex" when the uses of the instance number a tenth of the type number; so a small program that uses one instance often enough is refused although nothing is circular (`C93_too_common_fails`: any start, fewer than nine types made between uses).
* C94: an `as` expression that is not a condition (`b = x as T;`) leaves m_parsingConditionalAs set; the next if, loop or case with an ordinary condition is then refused ("not a valid form of '(ident as Type)'") although it is well formed (Parser.cpp:1442, 1680, 1914, 2088-2098; the flag is cleared only there and at 6477, 6493).
* C95: a function that does not return Void is accepted as soon as it has one return statement anywhere; when its body comes to its end the generated C++ function ends without a value (undefined behaviour) and the evaluator gives the cleared room for a result. The code says so itself (CompilerState.cpp:5579-5580).
* C96: with a shared base `A` (constant `x`), `B : A`, `C : A` (constant `x` anew) and `D : B + C`, the name `x` in `D` stands for the one of `A`, which `C` hides (C96_hidden_fails). Two bases that declare the same data member make a class that is accepted; the name silently stands for that of the first base (C96_ambiguous_fails).
* C97: in a file that begins `/** a */ ulam 5; /** b */ element E …` the second comment reaches the parser as a token and the program is refused (C97_comments_fails). `ulam 4294967297;` is accepted as version 1 (C97_version_fails). A file that ends right after `ulam 5` makes `setFileUlamVersion` take the top of an empty stack (C97_version_at_end_fails). `load Foo "bar";` loads the file `Foobar`, `use Foo Bar;` means `FooBar.ulam` (C97_names_fails). A file that begins with an invalid token fails an assertion (C97_first_fails).
* C98: the test for a returned reference is `index > m_currentFrame`, but the parameters are below the frame pointer. A parameter passed by value is returned by reference without an error; the pointer is relative, so that for the caller it is a slot of the caller's own frame. Returned by way of another function it is absolute, and its slot is given to whatever is pushed next.
* C98: a reference to a constant is always refused, although constants are never given back.
* C99: `UlamTypeClassElement::explicitlyCastable` turns every refusal of an atom into an acceptance, the one for constness too: `(E &) a` is accepted for `constant Atom & a` (`C99_constness_fails`).\n* C99: a cast expression from a reference to a quark down to a subclass is accepted although the result is a value (the comment says only to references); the evaluator aborts when the object is not of that class. It also aborts on an accepted conversion to a transient base class of more than 71 bits.\n* C99: an array of a subclass is forecast to be safely convertible to an array of the superclass, and then refused; no cast expression to an array of a class is ever accepted, not even to the operand's own type.
* C100: when a shared class has no place in one of the elements, `copySharedData` returns -1 with the classes before it already copied into the target (`C100_unchanged_on_refusal_fails`); its comment does not mention -1.
* C101: two functions of one class with the same name and parameters are not reported when the first of them in the table is virtual, and that depends on the order of the table (numbers of types as decimal strings): `C101_no_duplicates_fails`, `C101_duplicate_order_fails`. A class written `{ }` is not checked at all, so two bases that disagree on what a function returns go unnoticed: `C101_empty_class_fails`. While parsing, a function without parameters has the key of one with a single `Void` parameter.
* C102: an `aref` inherited by two ways from one shared base is counted twice, so the subscript is called ambiguous: `C102_shared_base_fails`. The messages about `aref` functions that return `Void` or different types are built and never shown, and the result of the check is not used: `C102_check_silent_fails`; subscripting such an object with `Void` first stops the compiler at an assertion: `C102_void_aborts_fails`.
* C103: in generated code, an inherited member of an inherited member is read too early by reference (`r.d.x`, short by the place of the base of `d`): `C103_reference_fails`; `self.Base.d.x` and a call `d.x.f()` with `d` inherited ask the object for the class of `x` instead of that of `d`, and the program stops as the object has no such part: `C103_self_base_fails`, `C103_call_fails`; a member that the superclass inherits is read from `super` with the superclass counted twice: `C103_super_inherited_fails`, and with shared bases one of its own is read where an object of the class of the function has it, whatever the object: `C103_super_derived_fails`.
* C104: the starts in the generated tables are 16 bit numbers, so a class with more than 65536 virtual functions finds others: `C104_start_fails`. For a class that is not related the start is 0, so the table itself refuses nothing: `C104_unrelated`.
* C105: a checksum of no bits is valid or not as the shift by 32 does, which the language leaves to the library: `C105_no_bits_fails`.
* C107: `acuteAngle` is 179 for the 16 pairs of opposite sites that are not on an axis: `C107_opposite_fails`. It fails for site numbers from 41 to 63: `C107_outside_fails`.
* C108: a message for a shared base is left out if it is, or may be, a direct base too; that the direct base is then reported needs types that can be compared, which the code asserts when bases are shared (SymbolClass.cpp:585).
* C109: a variable whose symbol is not found while a base class is not known yet is refused with nothing but a message to wait (`NodeVarDecl.cpp:526-530`, `879-885`): `C109_kin_fails`.
* C110: if it is not known yet whether something may be referred to, though it may be stored into, a reference to it is refused at once (`NodeVarRef.cpp:275-293` looks only at whether it may be stored into): `C110_hazy_fails`.
* C111: `isAConstant` of a list answers yes if the last item is constant and those before are not known (`NodeList.cpp:350-355`, the comment there takes the item for one that is not constant): `C111_const_fails`. A list with an item that is refused, followed by one that is not known yet, is waited for instead of refused (`NodeListArrayInitialization.cpp:152`): `C111_order_fails`.
* C112: the compiler stops at `assert(count == matchingFuncCount)` (`CompilerState.cpp:5265`) instead of reporting an ambiguous call where a class inherits two bases and also a class inheriting both, each with a function the call can mean (only one of the two related entries is taken out of the map, and the look-up counts all three): `C112_fan_fails`; and where a class has several functions for the call none of which is of the arguments' kinds, and two bases have one each: `C112_kinds_fails`.
* C114: a `Unary` data member whose initial value is neither 0, 1 nor the greatest starts with another: `Unary(3) m = 2` starts as 3. The value is in the format of `Unary` already, two ones, and is converted once more as if it were binary (`NodeVarDeclDM.cpp:746`, `:780`): `C114_unary_fails`, for all sizes and values. A `Bool` that is false with some bit set makes the member true: `C114_bool_fails`. An initial value that evaluates as `UNEVALUABLE` counts as 0 without a message: `C114_unevaluable_fails`. A `Bits(70)` data member is allowed, but the compiler aborts if it has an initial value: `C114_big_fails`.
* C118: in the printed tree a negative `Int` of more than 32 bits is printed as the number `2^64` above it (`write_hexadecimallong` gets it as `u64`, and writes decimal): `C118_negative_fails`; an `Unsigned` or `Bits` in the upper half of 32 bits is printed negative, e.g. `-1u`, as `write_decimal_unsigned` uses `%i` (`File.cpp:62`): `C118_upper_half_fails`; a `Unary` of `k` is printed as `2^k - 1`: `C118_unary_fails`.
* C120: the value given for an inherited array or class that is a member of a constant is not the bits it takes up but those before it by the position of the base in the class: `getConstantMemberValue` takes the position in the declaring class alone (`NodeMemberSelect.cpp:390`), unlike `NodeIdent::getPositionOf`, which adds that of the base: `C120_inherited_fails`, for all positions. As members come before bases, this is any inherited member of a class with members of its own.
* C119: if it is hazy whether the left side of a call can be stored into, there is a message to wait but the call is labelled all the same, without another round of its own: `nuti = Hzy` at `NodeMemberSelect.cpp:209` is not used again: `C119_hazy_fails`.
* C121: code that reads a member of a constant (one of a function, or an argument) takes the position of the last member in the class that declares it, and nothing else: with two selections, as in `t.q.b`, or with an inherited member, other bits are read (`Node.cpp:1122`): `C121_chain_fails` gives the position read and when it is the right one. Constants of classes and files are first copied and then read as other variables (C103).
* C122: constants of the class compiled are written without qualification; constants of functions have the same C++ name, so `self.k` reads the function's `k` if there is one: `C122_hidden_fails`.
* C124: a transient of 33 to 64 bits, written through a reference when the object is of a derived class, is turned into a vector by laying the 64-bit number over two 32-bit words (`UlamTypeClassTransient.cpp:658-669`); with the low byte first in memory the halves come in the wrong order: `C124_transient_fails` shows for every such class and every layout a value that is not read back. (A comment in the code for quarks mentions the dependence.)
* C125: values of quark arrays of 65 to 95 bits have the C++ type `BV96`, but the storage has fewer bits: `ReadBV`/`WriteBig` at 0 go beyond its end (`UlamType.cpp:340-345`, `UlamTypeClassQuark.cpp:870-878`): `C125_quark_fails`.
* C128: the constructor from a reference calls `d.read(tmpbv)` for arrays of primitives and Strings of more than 64 bits, where the struct for references declares only `read()`; for quark arrays it calls `read()`, where only `read(T&)` is declared: `C128_ref_fails`. That method, for up to 64 bits, passes the variable as the length to `Read` and drops the result: `C128_fill_fails`.
* C129: for a quark with bases, `q as Q` with its own class makes a reference with the bits of the own members only (`NodeVarRefAs.cpp:337-348` with `UlamTypeClassQuark.cpp:279-288`): `C129_same_fails`. For a transient and a transient base, and for an atom and a quark, the distance to the start of the object is not given to the constructor (`NodeVarRefAs.cpp:244`, `:322-335`); assuming that the library then takes it as zero: `C129_transient_fails`, `C129_atom_fails`. For a data member that is an object of a class, the variable refers to V in the object around the data member, since the reference first made keeps the effective self of that object (`NodeVarRefAs.cpp:157-183`): `C129_member_fails`.
* C133: a cast of `self` or another reference to a base class calls, in the evaluator, the function for quarks also for transients (`NodeCast.cpp:900`, `:913`); it asserts that each part has at most 64 bits, so that a cast to a transient with 65 to 71 bits of its own ends the compiler: `C133_reference_fails`.
* C131: in a function of a base class, `self` as a value is `ur.Read()`, and `ur` has the length of the own members (`Node.cpp:1333-1346`, `:3998-4006`); if the class has bases with bits of their own, and up to 64 bits in all, these are missing and the own members are taken for the last bits of the value: `C131_base_fails`; so `self = self` changes the object: `C131_assign_fails`.
- C134/C135: the evaluator keeps an array of 65 to 71 bits in one stack slot but sets it up as if each item had its own: of an array of quarks only the first item gets the default, of an initialised array of primitives the last item gets the first value and the others zeros (NodeVarDecl.cpp:1037-1086, 1176-1190). An initialised transient of 65 to 71 bits is put at bit 0 instead of 25 (line 1124). An initialised array of elements is read as if the elements had no type bits (lines 1196-1209). An initialised array of small classes aborts (line 1171).
- C136: the same as C134/C135 for constant arrays of 65 to 71 bits. A constant array of quarks of 33 to 64 bits with an empty list of initialisers gets the default of the quark cast to u32 (NodeConstantDef.cpp:1492): the first bits of the default are lost. A constant transient of 65 to 71 bits with an empty list aborts (line 1497).
- **C137** A reference made from another reference (or from `self`) is not always to the member named. `Unsigned& u = r.a.x` with an inherited `a` asks for the position of the class that declares `x` so the program stops (`C137_primitive_fails`; the same was mended for classes, t41642). `Q& q = r.a.b` with `b` inherited by the type of `a` leaves out the position of the base (`C137_class_fails`). `Q& q = r.Base.m` fails an assertion of the compiler (`C137_base_fails`), and `Q& q = r.a.Base.m` forgets where `a` is (`C137_inner_base_fails`).
- **C138** A cast of a member does not always lead to the part named. With a member inherited by the type of the member before, the position of the base is left out (`C138_inherited_fails`), or an assertion of the compiler fails (`C138_assertion_fails`). A cast to a reference to the member's own class, `(Q&) v.m` or `(Q&) r.m`, forgets where the member is (`C138_same_fails`; t41634 tests it with `self` and an own member, where it is right). The check `FAIL(BAD_CAST)` before a cast to a derived class asks the derived class, not the object, whether it has the base, and so never fails (`badCast_never`); it is the search for the part that stops the program (`C138_reference`).
- **C139** Lists for arrays that are not well-formed are accepted without a report: without the closing bracket before a semicolon (`C139_unclosed_fails`), with an empty item left out if no comma is behind it (`C139_left_out_fails`), with extra commas, without a comma before a bracket, or with a bracket that is never closed (`C139_commas_fails`).
C140: a comma between parameters of a function may be missing and one may be behind the last (`f(Int a Bool b,)` is accepted); in a call places between commas may be empty (`f(1,,2)` is `f(1, 2)`): `C140_commas_fails`, `C140_call_commas_fails`.
C141: the evaluator keeps what a local reference is to with the symbol (`m_autoPtrForEval`), one for all activations. In `f(Int& p) { Int& r = p; ... f(x); r = 1; }` the assignment is to `x` instead of to what was passed (`C141_recursion_fails`, `C141_member_fails`). The generated code has C++ references and does not have this fault.
C142: assigning a packed array of 65 to 71 bits (`Int(7)[10]`) by reference aborts the evaluator, as `assignUlamValueAtAbsoluteIndex` has no case for such lengths, which `assignUlamValue` has (`C142_wide_fails`).
C143: `NodeVarDecl::evalInitExpr` ends its frame only `if(doeval)`, but begins it always (`C143_list_fails`, `C143_operand_fails`). The branch appears to be dead: an array with a list has its value from check and label, and returns early.
C145: `NodeSquareBracket::evalToStoreInto` compares the place of an item with the top of the stack only, not with the size of the array, and `eval` does not look at negative subscripts (`C145_store_outside_fails`, `C145_read_negative_fails`).
C147: `Resolver::mapUTItoUTI` of a type already mapped answers that it was done, but maps another type (`C147_again`); the callers ask first.
C148: `SymbolClass::buildIsBitVectorByRegNum` is called nowhere in the repository; the generated `is` test uses the switch of C78 instead.
C149: `CompilerState::tryToPackAClassHierarchy` answers no for every hierarchy in which a class has no superclass (`C149_answer_fails`): the walker also returns the empty place, for which no class is found. `UrSelf`, from which all classes descend, has none, so the answer is never yes, and the callers in `NodeMemberSelect` and `NodeMemberSelectByBaseClassType` never take the branch for it, although all classes were packed (`C149_all_packed`).
* C66: in `Int a = f(a)` the argument is the variable being declared; a use above a constant of the same name in its block is
  rejected although an outer variable is meant; deep nesting (51 blocks) uses up the 101 passes.

## Axioms of each property theorem

Output of `#print axioms`, grouped.

### none

`Strings.C19_index_check_too_weak`, `Window.C34_index_round_trip`, `Window.C34_corner_valid`,
`UMod.C40_isComparable_fails`, `Chance.C45_nothing_selected`, `Util.C51_repeated_suffix_refused`, `Stdlib.C62_take`,
`Subscript.C71_long_store_fails`, `Templ.C92_text_partial`, `FuncTable.C101_duplicate_order_fails`,
`CustomArray.C102_check_silent_fails`, `Select.C120_position`

### propext

`Types.C08_reflexive`, `Types.C08_not_transitive`, `Types.C08_not_transitive_bool`, `Types.C10_negative_size`,
`Keys.C30_irreflexive`, `Stdlib.C47_brighter_black_fails`, `Fold.C49_rejects_part`,
`Fold.C49_negative_remainder_fails`, `Fold.C49_capped_remainder_fails`, `Control.C53_continue_skips_step`,
`Control.C53_break_runs_on`, `CallStack.C55_operand_order`, `Stdlib.C62_squared_length_fails`,
`Scope.C66_call_argument_fails`, `Scope.C66_constant_fails`, `Scope.C66_nesting_fails`, `Order.C70_operator_fails`,
`Order.C70_assign_fails`, `Order.C70_arguments_fails`, `Order.C70_extra_fails`, `Proxy.C75_refused_partial`,
`Proxy.C76_lengthof_scalar`, `Related.C79_refused`, `Driver.C81_exit_partial`, `Frame.C88_doubles`,
`Preparse.C97_first_fails`, `RefRet.C98_self_and_sites`, `ClassCast.C99_kinds`, `FuncTable.C101_no_duplicates_fails`,
`CustomArray.C102_messages`, `GenPos.C103_reference_partial`, `GenPos.C103_reference_fails`,
`GenPos.C103_reference_other_fails`, `Decl.C109_kin_fails`, `Decl.C110_hazy_fails`, `Decl.C111_list`,
`Decl.C111_array`, `Decl.C111_order_fails`, `Decl.C111_uses`, `Dm.C113_cast`, `Select.C119_restored`,
`Select.C119_used_before`, `ConstRead.C121_whole`, `Immed.C128_copy`, `Immed.C128_ref_fails`, `AsRef.C129_same_fails`,
`AsRef.C129_transient_fails`, `AsRef.C129_atom_fails`, `RefInit.C137_primitive_fails`, `RefInit.C137_class_fails`,
`RefInit.C137_base_fails`, `RefInit.C137_inner_base_fails`, `CastPos.C138_reference`, `CallParse.C140_reported`,
`RefRec.C141_member_fails`

### propext, Quot.sound

`Leximited.C01_unsigned_prefix_free`, `Leximited.C01_signed32_prefix_free`, `Leximited.C01_signed64_prefix_free`,
`Leximited.C01_string_prefix_free`, `Leximited.C01_string_sequences`, `Leximited.C01_short_form`,
`Types.C07_arrays_and_references`, `Types.C10_undefined_shift`, `Types.C11_unary_least`, `Layout.C12_union`,
`Walker.C14_direct_ancestor`, `Lexer.C22_terminates`, `Lexer.C22_early_eof`, `Lexer.C22_put_back`,
`Control.C27_unused_loop_label`, `Parser.C28_fewest_parentheses`, `Parser.C28_is_amp`, `TypeTable.C31_sizes_settled`,
`CallStack.C32_store_load`, `Packed.C33_stack_clobbered`, `Window.C34_coord_round_trip`,
`Registry.C37_second_refused`, `CallStack.C38_and`, `CallStack.C38_or`, `CallStack.C38_nested`,
`CallStack.C38_generated`, `ByteStream.C41_queue`, `ByteStream.C41_refused_without_effect`,
`ByteStream.C42_read_back`, `ByteStream.C42_print_to_array`, `Chance.C43_categorize_answer`, `Chance.C43_allocate`,
`Chance.C43_full_counter_fails`, `Stdlib.C47_brighter_blue_fails`, `CallStack.C54_stack_restored`,
`CallStack.C55_same_value_partial`, `Packed.C56_read_range`, `Packed.C56_store_range_partial`,
`Packed.C56_store_wraps`, `Packed.C57_wide_items`, `Packed.C57_quark_array`, `ByteStream.C59_copy_string`,
`Chance.C61_wide_level_fails`, `Chance.C61_overflow_fails`, `Stdlib.C62_manhattan_exact`, `Stdlib.C62_far_fails`,
`Stdlib.C62_directions`, `Stdlib.C62_area`, `Stdlib.C63_dup_answer`, `Default.C65_array`,
`Oper.C69_ternary_bool_fails`, `Oper.C69_wide_logical_fails`, `Order.C70_generated`, `Order.C70_short`,
`Order.C70_false_fails`, `Subscript.C71_index_types`, `Subscript.C71_string_long_fails`, `Driver.C83_asked_fails`,
`Dispatch.C86_returned_fails`, `Constness.C87_allowed`, `Constness.C87_ternary_fails`, `Constness.C87_cast_fails`,
`Constness.C87_storageof_fails`, `Constness.C87_return_fails`, `Constness.C87_as_fails`, `Constness.C87_cast_refused`,
`Frame.C88_choices_fail`, `Frame.C89_restored`, `Frame.C90_bound_partial`, `Frame.C90_recursion_fails`,
`Consts.C91_filescope_fails`, `Consts.C91_unknown`, `Templ.C92_parameters_accepted`,
`Templ.C92_parameter_commas_fails`, `Merge.C93_same_class`, `Merge.C93_stable`, `Merge.C93_settled`,
`StmtParse.C94_stray_as_fails`, `Returns.C95_typed`, `RefRet.C98_local_refused`, `RefRet.C98_passed_through`,
`RefRet.C98_value`, `RefRet.C98_parameter_passed_fails`, `RefRet.C98_constant_refused`,
`ClassIter.C100_hasNext_idempotent`, `ClassIter.C100_next`, `FuncTable.C101_parse_key`,
`FuncTable.C101_parse_key_none`, `FuncTable.C101_overload`, `FuncTable.C101_no_duplicates_partial`,
`FuncTable.C101_distinct_accepted`, `FuncTable.C101_returns_order`, `CustomArray.C102_item_type`,
`CustomArray.C102_custom_iff`, `CustomArray.C102_shared_base_fails`, `CustomArray.C102_void_aborts_fails`,
`CustomArray.C102_lengthof`, `GenPos.C103_local_variable`, `GenPos.C103_reference_own`, `GenPos.C103_reference_one`,
`GenPos.C103_super_partial`, `GenPos.C103_super_inherited_fails`, `GenPos.C103_call_partial`,
`GenPos.C103_call_fails`, `Storage.C105_update_iff`, `Storage.C105_no_bits_fails`, `Storage.C105_usable_fails`,
`Storage.C106_latch`, `Storage.C106_once`, `Storage.C107_sqrt32`, `Storage.C107_outside_fails`,
`Storage.C107_symmetric`, `Decl.C109_size`, `Decl.C109_outcome`, `Decl.C111_errors`, `Decl.C111_const_partial`,
`Decl.C111_const_fails`, `Dm.C113_ok`, `Dm.C114_big_fails`, `Dm.C115_sizes`, `Select.C119_accepted`,
`Select.C119_reported`, `Select.C119_modifiable_partial`, `Select.C119_hazy_fails`, `ConstRead.C121_read_partial`,
`ConstRead.C121_array`, `ConstRead.C122_hidden_fails`, `ConstRead.C122_abort`, `Immed.C128_ref_partial`,
`AsRef.C129_ref`, `AsRef.C129_object_place`, `AsRef.C129_object_partial`, `SelfCopy.C130_as_reference`,
`VarInit.C135_classes_fails`, `RefInit.C137_whole`, `RefInit.C137_local_variable`, `RefInit.C137_primitive_partial`,
`CastPos.C138_variable`, `CastPos.C138_assertion_fails`, `InitParse.C139_unclosed_fails`,
`InitParse.C139_left_out_fails`, `InitParse.C139_commas_fails`, `InitParse.C139_reported`,
`CallParse.C140_reads_back`, `CallParse.C140_call_reads_back`, `CallParse.C140_call_exactly_partial`,
`CallParse.C140_call_commas_fails`, `RefRec.C141_references_partial`, `RefRec.C141_recursion_fails`,
`AbsAssign.C142_whole`, `AbsAssign.C142_type_fails`, `AbsAssign.C142_beyond`, `EvalStmt.C143_value_partial`,
`EvalStmt.C143_statements_partial`, `EvalStmt.C143_list_fails`, `EvalStmt.C143_operand_fails`,
`EvalStmt.C143_left_operand`, `EvalCtl.C144_sound`, `EvalCtl.C144_complete`, `SlotArray.C145_read_beyond`,
`UtiMap.C147_map`, `UtiMap.C147_kept`, `UtiMap.C147_again`, `UtiMap.C147_requests`, `UtiMap.C147_clone`

### propext, Classical.choice, Quot.sound

`Mangle.C02_mangled_type_prefix_free`, `Mangle.C02_mangled_name_injective`, `Mangle.C02_class_type_prefix_free`,
`Mangle.C02_class_type_differs`, `Mangle.C02_unknown_size_collides`, `Mangle.C03_mangled_function_injective_partial`,
`Mangle.C03_name_exists`, `Mangle.C03_overloads_collide`, `Mangle.C04_key_exists`,
`Mangle.C04_key_iff_same_arguments_partial`, `Mangle.C04_key_iff_same_types_partial`,
`Mangle.C04_reference_key_differs`, `Mangle.C04_class_values_collide`, `Mangle.C04_string_arrays_collide`,
`Strto64.C05_signed_literal_exact`, `Strto64.C06_unsigned_literal_exact_partial`,
`Strto64.C06_negative_literal_behaviour`, `Strto64.C06_negative_accepted`, `Types.C07_implicit_cast_preserves`,
`Types.C07_numeric_cast_exact`, `Types.C08_transitive_partial`, `Types.C09_result_fits_partial`,
`Types.C09_result_size_within_word`, `Types.C09_unsigned_difference_does_not_fit`, `Types.C09_quotient_does_not_fit`,
`Types.C10_shift_left_size_partial`, `Types.C11_unsigned_least`, `Types.C11_signed_fits`,
`Types.C11_signed_least_partial`, `Types.C11_signed_not_least`, `Layout.C12_members_disjoint`,
`Walker.C13_visits_each_ancestor_once`, `Walker.C13_only_through_bases`, `Walker.C14_subclass_iff_ancestor`,
`Walker.C14_strict_order`, `Walker.C14_by_name`, `Walker.C14_shared_tally`, `Walker.C14_nearest`,
`Layout.C15_layout_partial`, `Layout.C15_union_overlaps_bases`, `Layout.C15_duplicate_refused`, `Layout.C15_query`,
`Virtual.C16_slots_are_stable`, `Virtual.C16_slots_are_apart`, `Virtual.C16_override_keeps_slot`,
`Virtual.C16_most_specific_partial`, `Virtual.C16_completes`, `Virtual.C16_conflicts_are_reported`,
`Virtual.C16_two_beginnings`, `Overload.C17_order_independent`, `Overload.C17_chosen_is_applicable`,
`Overload.C17_best_of_class`, `Overload.C17_exact_in_class_wins`, `Overload.C17_exact_wins_partial`,
`Overload.C17_only_candidate`, `Overload.C17_exact_can_lose`, `Overload.C17_ambiguity_can_hide`,
`Strings.C18_interning`, `Strings.C18_stable`, `Strings.C19_table`, `Strings.C20_emitted_literal`, `Strings.C21_item`,
`Strings.C21_string_literal`, `Strings.C21_unambiguous`, `Strings.C21_every_string`, `Strings.C21_too_long`,
`Strings.C21_octal_out_of_range`, `Strings.C21_char_literal`, `Lexer.C22_eof_at_end`, `Lexer.C23_line_program`,
`Lexer.C23_line_at_end`, `Lexer.C23_block_program_partial`, `Lexer.C23_after_doc_partial`,
`Lexer.C23_slash_after_doc`, `Lexer.C23_line`, `Lexer.C23_block_partial`, `Lexer.C23_adjacent`,
`Lexer.C23_after_star`, `Lexer.C24_lookahead`, `Lexer.C24_identifier`, `Lexer.C24_keyword`,
`Lexer.C24_operator_partial`, `Lexer.C24_two_dots`, `Lexer.C24_shift_at_end`, `Lexer.C24_ellipsis`,
`Lexer.C24_white_space`, `Source.C25_position`, `Source.C25_after_load`, `Source.C25_after_unread`,
`Source.C26_spliced_partial`, `Source.C26_reload_loses`, `Control.C27_accepted`, `Control.C27_generated_code`,
`Control.C27_gotos_have_labels`, `Control.C27_labels_used_partial`, `Parser.C28_grammar_partial`,
`Parser.C28_roundtrip_partial`, `Parser.C28_print_injective`, `Parser.C28_number_postfix`,
`Token.C29_decode_spelling`, `Token.C29_reversible`, `Token.C29_injective`, `Token.C29_needs_two_digits`,
`Keys.C30_lexicographic`, `Keys.C30_transitive`, `Keys.C30_total`, `Keys.C30_table`, `TypeTable.C31_basic_numbers`,
`TypeTable.C31_numbers_have_types`, `TypeTable.C31_request_answers`, `TypeTable.C31_same_number_partial`,
`TypeTable.C31_different_numbers`, `TypeTable.C31_number_keeps_meaning`, `TypeTable.C31_token_request`,
`TypeTable.C31_limit`, `TypeTable.C31_instance_number_fails`, `TypeTable.C31_same_number_fails`,
`CallStack.C32_frames_isolated`, `CallStack.C32_return_restores`, `CallStack.C32_return_succeeds`,
`Packed.C33_items_independent_partial`, `Packed.C33_window_packed`, `Packed.C33_stack_clobbered_witness`,
`Window.C34_sites`, `Window.C34_store_load`, `Window.C34_valid_partial`, `Window.C34_corner_absent`,
`Window.C34_site_order`, `ElemType.C35_types_unique`, `ElemType.C35_all_used`, `ElemType.C35_sequence_fixed`,
`Registry.C35_class_types`, `Util.C36_reversible`, `Util.C36_printable`, `Util.C36_fields_distinct`,
`Registry.C37_numbers_unique`, `Registry.C37_numbers_bounded`, `Registry.C37_numbers_stable`,
`Registry.C37_number_given`, `Control.C39_first_match`, `Control.C39_otherwise_last`, `UMod.C40_trichotomy`,
`UMod.C40_other_comparisons`, `UMod.C40_antisymmetric_partial`, `UMod.C40_antisymmetric_without_dead_band`,
`UMod.C40_dead_band_fails`, `UMod.C40_increment_decrement_partial`, `UMod.C40_largest_value_fails`,
`UMod.C40_neighbours`, `UMod.C40_not_rotation_invariant`, `ByteStream.C41_first_in_first_out`,
`ByteStream.C42_print_unsigned`, `ByteStream.C42_print_int`, `ByteStream.C42_other_bases`, `Chance.C43_categorize`,
`Chance.C43_hit`, `Chance.C43_scan`, `Chance.C43_count`, `Chance.C44_max_partial`, `Chance.C44_smaller_later_fails`,
`Chance.C44_stale_maximum_fails`, `Chance.C45_minimize_partial`, `Chance.C45_maximize_partial`, `Chance.C45_value`,
`Chance.C45_large_key_fails`, `Chance.C45_fair_ties_fails`, `Chance.C46_between_in_range`,
`Chance.C46_between_uniform`, `Chance.C46_wide_range_fails`, `Stdlib.C47_between`, `Stdlib.C47_between_monotone`,
`Stdlib.C47_modify`, `Stdlib.C47_dimmer`, `Stdlib.C47_dimmer_ends_black`, `Stdlib.C47_brighter_partial`,
`Stdlib.C47_brighter_ends_white`, `Stdlib.C47_color`, `Stdlib.C48_restore_partial`, `Stdlib.C48_other_symmetry`,
`Stdlib.C48_symmetry_fails`, `Fold.C49_exact_partial`, `Fold.C49_accepted`, `Fold.C49_zero_divisor`,
`Fold.C49_unsigned_difference_fails`, `Strings.C50_shown_text_partial`, `Strings.C50_quote_not_escaped`,
`Strings.C50_octal_merges`, `Util.C51_class_name`, `Util.C52_hexU64_injective`, `Util.C52_hexU64_value`,
`Control.C53_evaluator_agrees_partial`, `Packed.C56_store_beyond`, `Packed.C56_read_negative`,
`Packed.C57_copy_partial`, `Packed.C57_copy_packed_partial`, `Parser.C58_stops`, `Parser.C58_stops_inside`,
`ByteStream.C59_full_writer_fails`, `Chance.C60_odds`, `Chance.C60_odds_int`, `Chance.C61_mean_calls`,
`Chance.C61_alarm_stays`, `Stdlib.C62_manhattan_metric`, `Stdlib.C62_arithmetic`, `Stdlib.C62_boxes`,
`Stdlib.C62_squared_length_partial`, `Stdlib.C62_squared_distance`, `Stdlib.C63_colony_size_partial`,
`Stdlib.C63_documented_size_fails`, `Default.C64_default`, `Default.C64_exists`, `Default.C64_contains_itself`,
`Default.C65_list`, `Default.C65_accepted`, `Default.C65_refused`, `Default.C65_class_array`,
`Scope.C66_passes_partial`, `Scope.C66_lexical_partial`, `Scope.C66_duplicate`, `Cast.C67_evaluated_partial`,
`Cast.C67_generated_partial`, `Cast.C67_same_bits_partial`, `Cast.C67_implicit_preserves`, `Cast.C67_redundant_fails`,
`Cast.C67_string_to_bits_fails`, `Cast.C67_string_to_bool_fails`, `Cast.C67_bits_to_string_fails`, `Oper.C68_numeric`,
`Oper.C68_bits`, `Oper.C68_kept_partial`, `Oper.C68_unary_bits_fails`, `Oper.C69_compare`, `Oper.C69_bitwise`,
`Oper.C69_logical_partial`, `Oper.C69_mixed_sign`, `Oper.C69_ternary_partial`, `Oper.C69_ternary_unary_fails`,
`Order.C70_agree_partial`, `Subscript.C71_generated_partial`, `Subscript.C71_negative_fails`,
`Subscript.C71_constant_partial`, `Subscript.C71_constant_fails`, `Subscript.C71_agree_partial`,
`Subscript.C71_long_fails`, `Subscript.C71_string_partial`, `Subscript.C71_string_negative_fails`,
`Arith.C72_meaning`, `Arith.C72_zero`, `Arith.C72_exact_partial`, `Arith.C72_quotient_partial`,
`Arith.C72_remainder_partial`, `Arith.C72_accepted`, `Arith.C72_quotient_fails`, `Arith.C72_remainder_fails`,
`Arith.C72_division_within`, `Arith.C73_shift_partial`, `Arith.C73_left_exact_partial`, `Arith.C73_narrow_fails`,
`Arith.C73_size_fails`, `Arith.C74_minus`, `Arith.C74_minus_accepted`, `Arith.C74_bang`, `Arith.C74_twiddle`,
`Arith.C74_plus`, `Arith.C74_assign`, `Arith.C74_assign_accepted`, `Arith.C74_assign_bitwise_partial`,
`Arith.C74_assign_shift_partial`, `Arith.C74_assign_shift_fails`, `Arith.C74_step_accepted`, `Arith.C74_step`,
`Arith.C74_assign_zero_fails`, `Proxy.C75_max`, `Proxy.C75_min`, `Proxy.C75_bool`, `Proxy.C75_string_fails`,
`Proxy.C75_classid`, `Proxy.C75_classidof`, `Proxy.C76_sizeof_partial`, `Proxy.C76_lengthof`,
`Proxy.C76_lengthof_string`, `Proxy.C76_sizeof_fails`, `Proxy.C77_bits_partial`, `Proxy.C77_items_partial`,
`Proxy.C77_total_fails`, `Proxy.C77_wide_fails`, `Proxy.C77_unknown_fails`, `Related.C78_position`, `Related.C78_is`,
`Related.C78_direct`, `Related.C78_ordered`, `Related.C79_is`, `Related.C79_as_partial`, `Related.C79_as_sound`,
`Related.C79_transient_fails`, `Related.C79_generated`, `Related.C80_cast`, `Related.C80_self`, `Related.C80_select`,
`Related.C80_super_place`, `Related.C80_super_partial`, `Related.C80_cast_atom`, `Related.C80_as_partial`,
`Related.C80_as_element_fails`, `Related.C80_as_atom_partial`, `Related.C80_as_atom_fails`,
`Related.C80_member_partial`, `Related.C80_member_fails`, `Related.C80_super_fails`, `Driver.C81_clean`,
`Driver.C81_stages`, `Driver.C81_status`, `Driver.C81_exit_fails`, `Driver.C82_shown_once`, `Driver.C82_count`,
`Driver.C83_closed`, `Driver.C83_once`, `Driver.C83_ends`, `Driver.C83_asked_partial`, `Driver.C83_named`,
`Driver.C83_named_class`, `Sizing.C84_ends`, `Sizing.C84_sum_partial`, `Sizing.C84_answer`, `Sizing.C84_all_partial`,
`Sizing.C84_order`, `Sizing.C84_wrap_fails`, `Sizing.C84_early_fails`, `Sizing.C84_union_fails`,
`Sizing.C85_never_sized`, `Sizing.C85_reported`, `Sizing.C85_array_fails`, `Dispatch.C86_by_reference`,
`Dispatch.C86_class_partial`, `Dispatch.C86_runs_partial`, `Dispatch.C86_capture_fails`,
`Dispatch.C86_parameter_fails`, `Dispatch.C86_as_fails`, `Constness.C87_kept_partial`,
`Constness.C87_returned_partial`, `Constness.C87_refused`, `Frame.C88_apart_partial`, `Frame.C88_inside_partial`,
`Frame.C88_bound`, `Frame.C89_parameter`, `Frame.C89_self`, `Frame.C89_returned`, `Consts.C91_values`,
`Consts.C91_order`, `Consts.C91_circular`, `Consts.C91_any_order_partial`, `Consts.C91_forward`,
`Consts.C91_limit_fails`, `Templ.C92_parameters`, `Templ.C92_after`, `Templ.C92_before`, `Templ.C92_order`,
`Templ.C92_commas_fails`, `Merge.C93_same_arguments_partial`, `Merge.C93_accepted_partial`,
`Merge.C93_too_common_fails`, `StmtParse.C94_terminates`, `StmtParse.C94_reads`, `StmtParse.C94_accepts_partial`,
`StmtParse.C94_exactly`, `StmtParse.C94_unique`, `StmtParse.C94_nearest_else`, `StmtParse.C94_meaning`,
`Returns.C95_value`, `Returns.C95_returns_partial`, `Returns.C95_evaluator_partial`, `Returns.C95_falls_off`,
`Returns.C95_falls_off_fails`, `Member.C96_found`, `Member.C96_seen`, `Member.C96_own`, `Member.C96_unique`,
`Member.C96_superclass_first`, `Member.C96_class_or_ancestor`, `Member.C96_functions`, `Member.C96_shadow_exact`,
`Member.C96_unhidden_partial`, `Member.C96_hidden_fails`, `Member.C96_ambiguous_fails`, `Member.C96_file_last`,
`Member.C96_constants_only`, `Preparse.C97_reads_partial`, `Preparse.C97_no_directive`, `Preparse.C97_unread`,
`Preparse.C97_peek`, `Preparse.C97_missing_use`, `Preparse.C97_missing_load`, `Preparse.C97_bad_version_partial`,
`Preparse.C97_no_name`, `Preparse.C97_comments_fails`, `Preparse.C97_version_fails`,
`Preparse.C97_version_at_end_fails`, `Preparse.C97_names_fails`, `Preparse.C97_no_semicolon`, `Preparse.C97_message`,
`RefRet.C98_variable_refused`, `RefRet.C98_accepted_partial`, `RefRet.C98_parameter_fails`, `ClassCast.C99_implicit`,
`ClassCast.C99_implicit_array`, `ClassCast.C99_array_forecast_fails`, `ClassCast.C99_explicit`,
`ClassCast.C99_array_explicit_fails`, `ClassCast.C99_to_atom`, `ClassCast.C99_explicit_to_atom`,
`ClassCast.C99_from_atom`, `ClassCast.C99_from_primitive`, `ClassCast.C99_constness`, `ClassCast.C99_constness_fails`,
`ClassCast.C99_implicit_explicit`, `ClassCast.C99_order`, `ClassCast.C99_eval_partial`,
`ClassCast.C99_eval_transient_fails`, `ClassCast.C99_eval_atom`, `ClassCast.C99_atom_round_trip`,
`ClassCast.C99_from_reference`, `ClassCast.C99_downcast_value_fails`, `ClassCast.C99_constant_operand`,
`ClassIter.C100_iterates`, `ClassIter.C100_index`, `ClassIter.C100_copies_shared`,
`ClassIter.C100_big_class_fails_loudly`, `ClassIter.C100_no_element`, `ClassIter.C100_unchanged_on_refusal_fails`,
`FuncTable.C101_accepted_iff`, `FuncTable.C101_empty_class_fails`, `CustomArray.C102_call_iff`,
`CustomArray.C102_call_partial`, `CustomArray.C102_check_iff`, `GenPos.C103_self_read_partial`,
`GenPos.C103_self_base_fails`, `GenPos.C103_super_derived_fails`, `GenPos.C103_layout`, `VtGen.C104_written`,
`VtGen.C104_call_partial`, `VtGen.C104_start_fails`, `VtGen.C104_unrelated`, `Storage.C105_valid_iff`,
`Storage.C105_update_valid`, `Storage.C106_more_flips_fails`, `Storage.C107_angle_partial`,
`Storage.C107_opposite_fails`, `Storage.C107_clockwise`, `Inherit.C108_accepted`, `Inherit.C108_refused_reported`,
`Inherit.C108_accepted_iff`, `Inherit.C108_rounds`, `Inherit.C108_ancestors`, `Inherit.C108_no_class`,
`Decl.C109_accepted`, `Decl.C109_ok`, `Decl.C110_accepted`, `Overload.C112_notes`, `Overload.C112_asserts`,
`Overload.C112_unrelated_partial`, `Overload.C112_one_class_partial`, `Overload.C112_fan_fails`,
`Overload.C112_kinds_fails`, `Dm.C113_accepted`, `Dm.C113_outcome`, `Dm.C114_kept_partial`, `Dm.C114_bool_partial`,
`Dm.C114_bool_fails`, `Dm.C114_unary_partial`, `Dm.C114_unary_fails`, `Dm.C114_outcome`, `Dm.C114_unevaluable_fails`,
`ValText.C116_prefix_free`, `ValText.C116_zero`, `ValText.C117_value`, `ValText.C117_constant_array`,
`ValText.C117_list`, `ValText.C118_pretty`, `ValText.C118_printed_partial`, `ValText.C118_negative_fails`,
`ValText.C118_upper_half_fails`, `ValText.C118_unary_fails`, `Select.C120_value_partial`,
`Select.C120_inherited_fails`, `ConstRead.C121_item_partial`, `ConstRead.C121_chain_fails`,
`ConstRead.C122_name_partial`, `BaseCopy.C123_read`, `BaseCopy.C123_only`, `BaseCopy.C123_upcast`,
`BaseCopy.C124_write_partial`, `BaseCopy.C124_roundtrip_partial`, `BaseCopy.C124_others_partial`,
`BaseCopy.C124_transient_fails`, `Immed.C125_read_partial`, `Immed.C125_write_partial`, `Immed.C125_quark_fails`,
`Immed.C126_read`, `Immed.C126_write`, `Immed.C126_join`, `Immed.C127_string`, `Immed.C127_quark`,
`Immed.C128_fill_fails`, `AsRef.C129_atom_place`, `AsRef.C129_member_fails`, `AsRef.C129_read`, `SelfCopy.C130_write`,
`SelfCopy.C130_roundtrip`, `SelfCopy.C131_self_partial`, `SelfCopy.C131_base_fails`, `SelfCopy.C131_assign_partial`,
`SelfCopy.C131_assign_fails`, `ClassInfo.C132_info`, `ClassInfo.C132_partition`, `EvalCopy.C133_cast`,
`EvalCopy.C133_reference_partial`, `EvalCopy.C133_reference_fails`, `EvalCopy.C133_assign`, `EvalCopy.C133_roundtrip`,
`EvalCopy.C133_compose`, `VarInit.C134_place`, `VarInit.C134_default_partial`, `VarInit.C134_default_fails`,
`VarInit.C135_given_partial`, `VarInit.C135_primitives_fails`, `VarInit.C135_transient_fails`,
`VarInit.C135_elements_fails`, `ConstSlot.C136_primitives_partial`, `ConstSlot.C136_classes_partial`,
`ConstSlot.C136_primitives_fails`, `ConstSlot.C136_classes_fails`, `ConstSlot.C136_default_fails`,
`RefInit.C137_class_partial`, `CastPos.C138_member_of_variable_partial`, `CastPos.C138_member_of_reference_partial`,
`CastPos.C138_inherited_fails`, `CastPos.C138_same_fails`, `InitParse.C139_reads_back`, `InitParse.C139_unique`,
`InitParse.C139_stops`, `InitParse.C139_exactly_partial`, `CallParse.C140_exactly_partial`,
`CallParse.C140_commas_fails`, `AbsAssign.C142_part_partial`, `AbsAssign.C142_wide_fails`,
`AbsAssign.C142_pointer_fails`, `SlotArray.C145_read_partial`, `SlotArray.C145_store_partial`,
`SlotArray.C145_store_outside_fails`, `SlotArray.C145_read_negative_fails`, `SlotArray.C145_copy`, `SymTab.C146_add`,
`SymTab.C146_remove`, `SymTab.C146_replace_symbol`, `SymTab.C146_replace_name`, `SymTab.C146_merge`,
`SymTab.C146_copy`, `SymTab.C146_copy_common`, `SymTab.C146_rename`, `Kin.C148_stub_found`, `Kin.C148_stub_decided`,
`Kin.C148_bits`, `Kin.C148_bits_subclass`, `Kin.C148_mapped`, `PackKin.C149_answer_partial`,
`PackKin.C149_answer_fails`, `PackKin.C149_all_packed`, `PackKin.C149_stops`, `PackKin.C149_incomplete`
