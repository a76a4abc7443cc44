{"id": "C01", "title": "Leximited encodings are uniquely decodable", "statement": "Every number (signed/unsigned, 32/64 bit) and every string encoded by the ToLeximited* functions can be recovered from its encoding even when arbitrary text follows it, so two encodings are never one a prefix of the other and a concatenation of encodings splits in exactly one way.", "quantifier": "all numbers of each width, all byte strings, all continuations", "why_tests_cant": "the encoding has a recursive length header whose behaviour changes at lengths 9, 10^9, ...; prefix-freeness is a statement about all pairs and all continuations", "anchors": ["src/ulam/UlamUtil.cpp:ToLeximitedNumber", "src/ulam/UlamUtil.cpp:ToLeximitedHeader", "src/ulam/UlamUtil.cpp:ToLeximitedNumber64", "src/ulam/UlamUtil.cpp:ToLeximited"]}
{"id": "C02", "title": "Distinct types get distinct mangled type names", "statement": "Two complete non-class types that differ in base type, bit size, array size or being a reference never get the same mangled name in generated C++ code; zero-size and scalar markers do not collide with real sizes.", "quantifier": "all pairs of types with legal sizes", "why_tests_cant": "injectivity is over all pairs; a collision silently merges two generated C++ types", "anchors": ["src/ulam/UlamType.cpp:getUlamTypeMangledType", "src/ulam/UlamType.cpp:getUlamTypeMangledName", "src/ulam/UlamTypeClass.cpp:getUlamTypeMangledType"]}
{"id": "C03", "title": "Distinct function signatures get distinct generated names", "statement": "Two overloads of functions in a class with different names or different parameter type lists always receive different mangled function names.", "quantifier": "all function names, all parameter lists of any length", "why_tests_cant": "unbounded parameter lists; a collision would merge two overloads in generated code", "anchors": ["src/ulam/SymbolFunction.cpp:getMangledNameWithTypes", "include/SymbolFunction.h"]}
{"id": "C04", "title": "Distinct template arguments give distinct class instances", "statement": "Two instantiations of the same template with different constant argument values have different instance keys (and therefore are different classes).", "quantifier": "all parameter lists and argument values (scalars, arrays, strings, class values)", "why_tests_cant": "injectivity over unbounded argument lists and values", "anchors": ["src/ulam/SymbolClassNameTemplate.cpp:formatAnInstancesArgValuesAsAString", "src/ulam/SymbolWithValue.cpp:getValueAsHexString", "src/ulam/SymbolWithValue.cpp:getLexValueAsString", "src/ulam/SymbolWithValue.cpp:convertValueToALexString"]}
{"id": "C05", "title": "Signed integer literals denote their exact value or are rejected", "statement": "Converting a decimal, octal, hex or binary literal (optional sign) to Int(64) yields exactly the number its digits denote when that is in range, and an error whenever it is malformed or out of range.", "quantifier": "all byte strings", "why_tests_cant": "boundary values and overflow wrap checks for strings of any length", "anchors": ["src/ulam/strto64.cpp:Strto64::parse", "src/ulam/strto64.cpp:checkRange", "src/ulam/strto64.cpp:parseDigits"]}
{"id": "C06", "title": "Unsigned integer literals denote their exact value or are rejected", "statement": "Converting an unsigned literal yields exactly the number its digits denote when below 2^64, otherwise an error; a negative number is never accepted as unsigned.", "quantifier": "all byte strings", "why_tests_cant": "overflow detection must be right for digit strings of any length", "anchors": ["src/ulam/strto64.cpp:Strto64::parse", "src/ulam/strto64.cpp:checkRange", "include/strto64.h"]}
{"id": "C07", "title": "Implicit casts never lose a value", "statement": "Whenever the compiler accepts an implicit (safe) cast between primitive types, every value of the source type is representable in the destination type, for all bit sizes.", "quantifier": "all pairs of primitive types and bit sizes, all values", "why_tests_cant": "all bit sizes times all values", "anchors": ["src/ulam/UlamTypePrimitiveInt.cpp:safeCast", "src/ulam/UlamTypePrimitiveUnsigned.cpp:safeCast", "src/ulam/UlamTypePrimitiveUnary.cpp:safeCast", "src/ulam/UlamTypePrimitiveBool.cpp:safeCast", "src/ulam/UlamTypePrimitiveBits.cpp:safeCast"]}
{"id": "C08", "title": "Implicit castability is reflexive and transitive", "statement": "A type can always be implicitly cast to itself, and if A casts safely to B and B to C then A casts safely to C, so introducing an intermediate variable never makes a rejected program accepted.", "quantifier": "all triples of primitive types and sizes", "why_tests_cant": "quantifies over all triples of types and sizes", "anchors": ["src/ulam/UlamTypePrimitive*.cpp:safeCast", "src/ulam/UlamType.cpp:safeCast"]}
{"id": "C09", "title": "Arithmetic result types are wide enough", "statement": "The result type the compiler computes for +,-,*,/,% on Int/Unsigned/Unary operands can represent the exact mathematical result for all operand values, unless the result size was capped at the maximum word size.", "quantifier": "all operand type pairs, sizes and values", "why_tests_cant": "all sizes times all values", "anchors": ["src/ulam/NodeBinaryOpArithAdd.cpp:resultBitsizeCalc", "src/ulam/NodeBinaryOpArith.cpp:calcNodeType", "src/ulam/NodeBinaryOpArithMultiply.cpp:resultBitsizeCalc", "src/ulam/NodeBinaryOpArithSubtract.cpp:resultBitsizeCalc"]}
{"id": "C10", "title": "Shift-left result sizing is exact below the word size", "statement": "The result size of x << k is wide enough for any shift amount representable in the right operand, and computing it never has undefined behaviour.", "quantifier": "all operand sizes and shift amounts", "why_tests_cant": "all sizes; host-language shift overflow is invisible to tests on one machine", "anchors": ["src/ulam/NodeBinaryOpShiftLeft.cpp", "src/ulam/NodeBinaryOpShift.cpp:calcNodeType"]}
{"id": "C11", "title": "Literals get the smallest type that holds them", "statement": "The type given to a numeric literal can represent the literal, and no smaller bit size of that type can.", "quantifier": "all 64-bit literal values, signed and unsigned", "why_tests_cant": "2^64 values", "anchors": ["src/ulam/NodeTerminal.cpp:checkAndLabelType", "src/ulam/NodeTerminal.cpp:fitsInBits"]}
{"id": "C12", "title": "Data members never overlap", "statement": "In a non-union class the bit ranges of any two data members are disjoint, lie inside the class's size, and are laid out in declaration order; in a union all members start at 0 and fit inside the size.", "quantifier": "all lists of data members with arbitrary sizes", "why_tests_cant": "unbounded lists of members", "anchors": ["src/ulam/NodeVarDeclDM.cpp:packBitsInOrderOfDeclaration", "src/ulam/NodeBlockClass.cpp:packBitsForVariableDataMembers", "src/ulam/SymbolTableOfVariables.cpp:getTotalVariableSymbolsBitSize"]}
{"id": "C13", "title": "Every ancestor is visited exactly once", "statement": "Walking the base classes of a class terminates and visits the class and each of its ancestors exactly once, for any inheritance graph including diamonds and repeated bases, in either search order.", "quantifier": "all finite inheritance graphs (even cyclic ones)", "why_tests_cant": "arbitrary graphs", "anchors": ["src/ulam/BaseclassWalker.cpp:getNextBase", "src/ulam/BaseclassWalker.cpp:addAncestorsOf"]}
{"id": "C14", "title": "Subclass test equals strict ancestry", "statement": "The compiler's 'is a subclass of' test answers yes exactly when the second class is a proper ancestor of the first in the declared inheritance graph, hence upcasts are accepted exactly for ancestors.", "quantifier": "all finite acyclic inheritance graphs", "why_tests_cant": "arbitrary graphs, soundness and completeness", "anchors": ["src/ulam/CompilerState.cpp:isClassASubclassOf", "src/ulam/CompilerState.cpp:findTheSharedVirtualBasesInAClassHierarchy"]}
{"id": "C15", "title": "Shared base parts are laid out once and disjointly", "statement": "Each ancestor of a class occupies exactly one region in its layout; the regions of distinct ancestors and of the class's own data members are disjoint and fill the class's total size.", "quantifier": "all class hierarchies", "why_tests_cant": "arbitrary hierarchies", "anchors": ["src/ulam/NodeBlockClass.cpp:packBitsForVariableDataMembers", "src/ulam/SymbolClass.cpp:determineSharedBasesAndTotalBitsize"]}
{"id": "C16", "title": "Virtual function slots are stable under overriding", "statement": "An override occupies the same slot of the originating class's table as the function it overrides; new virtual functions never disturb existing slots; the table entry found for a slot is that of the most specific override.", "quantifier": "all sequences of virtual declarations along a hierarchy", "why_tests_cant": "histories of declarations of any length", "anchors": ["src/ulam/SymbolFunction.cpp:calcMaxIndexOfVirtualFunction", "src/ulam/SymbolClass.cpp:VT entries", "include/VirtualTable.h"]}
{"id": "C17", "title": "Overload resolution is independent of declaration order", "statement": "For a given set of overloads and argument list the chosen function (or the ambiguity) does not depend on the order in which overloads are stored, a chosen function is always applicable, and an exact match always wins.", "quantifier": "all finite overload sets and argument lists", "why_tests_cant": "all permutations of all overload sets", "anchors": ["src/ulam/SymbolFunctionName.cpp:findMatchingFunctionWithSafeCasts", "src/ulam/SymbolFunctionName.cpp:findMatchingFunctionStrictlyByTypes", "src/ulam/SymbolFunction.cpp:matchingTypes"]}
{"id": "C18", "title": "String pool interning", "statement": "After any history of requests, equal strings have equal indexes and different strings different indexes, an index always returns the string it was given out for, and index 0 is never given out.", "quantifier": "all histories of pool operations", "why_tests_cant": "any history length", "anchors": ["src/ulam/StringPool.cpp:getIndexForDataString", "src/ulam/StringPool.cpp:getDataAsString", "src/ulam/StringPool.cpp:getIndexForNumberAsString"]}
{"id": "C19", "title": "User strings are found at their pool offsets", "statement": "In the emitted user string pool, the bytes at the index of each user string are its length, its characters and a terminating zero; different strings never overlap; lengths and characters read through an index are those of the string.", "quantifier": "all histories of string literals of length at most 255", "why_tests_cant": "any history", "anchors": ["src/ulam/StringPoolUser.cpp:getIndexForDataString", "src/ulam/StringPoolUser.cpp:generateUserStringPoolEntries", "src/ulam/CompilerState.cpp:generateGlobalUserStringPool"]}
{"id": "C20", "title": "Emitted string constants denote the original bytes", "statement": "The C++ string literal text emitted for a user string, read by the C++ rules, denotes exactly the original bytes.", "quantifier": "all byte strings", "why_tests_cant": "escape interactions depend on neighbouring bytes", "anchors": ["src/ulam/StringPoolUser.cpp:formatDoubleQuotedString", "src/ulam/StringPoolUser.cpp:generateUserStringPoolEntries"]}
{"id": "C21", "title": "String literals with escapes denote the intended bytes", "statement": "Any byte string of length at most 255 can be written as a quoted literal using escapes and the compiler stores exactly those bytes; over-long strings and out-of-range escapes are rejected.", "quantifier": "all byte strings", "why_tests_cant": "all byte strings and following bytes", "anchors": ["src/ulam/Lexer.cpp:makeDoubleQuoteToken", "src/ulam/Lexer.cpp:nextByte", "src/ulam/Lexer.cpp:formatOctalConstant", "src/ulam/Lexer.cpp:formatHexConstant", "src/ulam/Lexer.cpp:formatUserString"]}
{"id": "C22", "title": "Tokenizing terminates and consumes all input", "statement": "For any input each token request consumes at least one byte or reports end of file, so repeatedly asking for tokens reaches end of file after at most as many tokens as bytes.", "quantifier": "all byte strings", "why_tests_cant": "termination for all inputs", "anchors": ["src/ulam/Lexer.cpp:getNextToken", "src/ulam/Lexer.cpp:makeWordToken", "src/ulam/Lexer.cpp:makeOperatorToken", "src/ulam/Lexer.cpp:eatComment"]}
{"id": "C23", "title": "Comments are transparent", "statement": "Removing a comment (replacing it by a space) never changes the sequence of tokens.", "quantifier": "all programs and comment contents and positions", "why_tests_cant": "all comment contents and positions", "anchors": ["src/ulam/Lexer.cpp:eatComment", "src/ulam/Lexer.cpp:eatBlockComment", "src/ulam/Lexer.cpp:eatLineComment", "src/ulam/Lexer.cpp:getNextToken"]}
{"id": "C24", "title": "Operators and identifiers are lexed by longest match", "statement": "An identifier token is the longest run of identifier characters, and an operator token is the longest operator spelling in the token table that is a prefix of the remaining input.", "quantifier": "all inputs", "why_tests_cant": "all continuations after each operator", "anchors": ["src/ulam/Lexer.cpp:makeOperatorToken", "src/ulam/Lexer.cpp:makeWordToken", "include/Token.inc"]}
{"id": "C25", "title": "Reported source positions are right", "statement": "After reading any prefix of a file, the reported line is one plus the number of newlines read and the column is the number of bytes read since the last newline (as long as they fit in the counters).", "quantifier": "all files and read positions", "why_tests_cant": "any file", "anchors": ["src/ulam/Locator.cpp:updateLineByteNo", "src/ulam/SourceStream.cpp:read", "src/ulam/SourceStream.cpp:unread"]}
{"id": "C26", "title": "Loaded files are spliced in place", "statement": "With nested loads the byte stream seen is the outer file up to the load point, then the whole loaded file, then the rest of the outer file, for any nesting; a pushed-back byte is seen exactly once more.", "quantifier": "all nestings and schedules of read/unread/load operations", "why_tests_cant": "any operation history", "anchors": ["src/ulam/SourceStream.cpp:read", "src/ulam/SourceStream.cpp:push", "src/ulam/SourceStream.cpp:unread"]}
{"id": "C27", "title": "break and continue go to the right construct", "statement": "For any nesting of while, for and switch, 'continue' targets the innermost enclosing loop, 'break' the innermost enclosing loop or switch, and each is accepted only when such a construct exists; a loop's exit label is emitted iff something jumps to it.", "quantifier": "all nestings and sequences of push/pop/break/continue", "why_tests_cant": "any nesting depth and history", "anchors": ["src/ulam/ParsingLoopsSwitchStack.cpp", "src/ulam/Parser.cpp:parseControlWhile"]}
{"id": "C28", "title": "Expression parsing respects precedence and associativity", "statement": "Printing any expression tree with the minimal parentheses demanded by the documented precedence table (left associative binary operators, right associative assignment and ?:) and parsing it back gives the same tree.", "quantifier": "all expression trees", "why_tests_cant": "unbounded trees", "anchors": ["src/ulam/Parser.cpp:parseExpression", "src/ulam/Parser.cpp:parseRestOfTerm", "src/ulam/Parser.cpp:parseAssignExpr", "src/ulam/Parser.cpp:makeQuestionColonNode", "src/ulam/Parser.cpp:makeAssignExprNode", "src/ulam/Parser.cpp:makeFactorNodePreUnaryOp"]}
{"id": "C29", "title": "Operator overload names are reversible", "statement": "The internal function name made for an operator overload determines the operator, and two different operators never share a name.", "quantifier": "all operator tokens in the table, all operator spellings", "why_tests_cant": "all strings of operator characters", "anchors": ["src/ulam/Token.cpp:getOperatorOverloadFullName", "include/Token.inc"]}
{"id": "C30", "title": "Type keys are strictly totally ordered", "statement": "The order used to index types by signature is irreflexive, transitive and total, and equivalence under it is equality of all the fields, so the type table can neither lose nor merge types.", "quantifier": "all pairs/triples of signatures", "why_tests_cant": "all triples", "anchors": ["src/ulam/UlamKeyTypeSignature.cpp:operator<", "src/ulam/UlamKeyTypeSignature.cpp:operator=="]}
{"id": "C31", "title": "Type numbering is an interning", "statement": "Asking for the same complete non-class type twice gives the same type number, different types get different numbers, and a type number once given out keeps denoting the same type, over any history of requests.", "quantifier": "all histories of type requests", "why_tests_cant": "any history", "anchors": ["src/ulam/CompilerState.cpp:makeUlamType", "src/ulam/CompilerState.cpp:isDefined", "src/ulam/CompilerState.cpp:anyDefinedUTI", "src/ulam/CompilerState.cpp:initUTIAlias"]}
{"id": "C32", "title": "Call frames are isolated", "statement": "In the evaluator, a value stored at a frame-relative slot is what is later loaded from that slot, writes to one frame never change another frame's slots, and returning restores the caller's frame exactly.", "quantifier": "all histories of frame and slot operations", "why_tests_cant": "any call history", "anchors": ["src/ulam/CallStack.cpp"]}
{"id": "C33", "title": "Packed array items are independent", "statement": "Writing one item of a packed array and reading it back gives the value written, and leaves every other item unchanged.", "quantifier": "all item sizes, array sizes, indexes and contents", "why_tests_cant": "all sizes and contents", "anchors": ["src/ulam/UlamValue.cpp:putPackedArrayDataIntoAtom", "src/ulam/UlamValue.cpp:getPackedArrayDataFromAtom", "src/ulam/UlamValue.cpp:getData", "src/ulam/UlamValue.cpp:putData"]}
{"id": "C34", "title": "Event window coordinates and slots correspond one to one", "statement": "In the evaluator's event window, distinct coordinates within distance 4 use distinct storage, index/coordinate conversion is invertible, and exactly the 41 coordinates within Manhattan distance 4 are valid.", "quantifier": "all coordinates", "why_tests_cant": "all coordinate pairs", "anchors": ["src/ulam/UEventWindow.cpp:isValidSite", "src/ulam/UEventWindow.cpp:convertCoordToIndex", "include/UEventWindow.h"]}
{"id": "C35", "title": "Element type numbers are unique", "statement": "The element type generator never returns the same type number twice nor a reserved one, in any history, and keeps producing new ones until all are used.", "quantifier": "all histories of requests", "why_tests_cant": "any history; 65534 types", "anchors": ["src/ulam/ElementTypeGenerator.cpp:makeNextType", "src/ulam/ElementTypeGenerator.cpp:makeAType"]}
{"id": "C36", "title": "Hex escaping is reversible and stays printable", "statement": "HexEscape output contains only printable non-space characters and the original bytes can always be recovered from it.", "quantifier": "all byte strings", "why_tests_cant": "all byte strings", "anchors": ["src/ulam/UlamUtil.cpp:HexEscape"]}
{"id": "C37", "title": "Class registration numbers are unique and bounded", "statement": "After any sequence of assignments no two classes share a registration number and all are below the maximum; a second assignment to a class is refused.", "quantifier": "all histories", "why_tests_cant": "any history", "anchors": ["src/ulam/SymbolClass.cpp:assignRegistryNumber", "src/ulam/SymbolClass.cpp:assignElementType", "src/ulam/CompilerState.cpp:assignClassId"]}
{"id": "C38", "title": "Logical operators short circuit", "statement": "Evaluating a && b or a || b evaluates b exactly when a does not decide the result, and the result is the conjunction/disjunction, for arbitrarily nested expressions with side effects.", "quantifier": "all expression trees and side-effecting leaves", "why_tests_cant": "all nestings and schedules of effects", "anchors": ["src/ulam/NodeBinaryOpLogicalAnd.cpp:eval", "src/ulam/NodeBinaryOpLogicalOr.cpp:eval", "src/ulam/NodeBinaryOpLogical.cpp"]}
{"id": "C39", "title": "Switch runs the matching case only", "statement": "A switch executes the body of the first case group whose value equals the switch value (with shared labels falling together), otherwise the default body if there is one; a default that is not the last label is refused.", "quantifier": "all lists of cases", "why_tests_cant": "all case lists", "anchors": ["src/ulam/Parser.cpp:parseControlSwitch", "src/ulam/Parser.cpp:parseNextCase", "src/ulam/Parser.cpp:parseRestOfCase"]}
{"id": "C40", "title": "Wrap-around counter comparison (UMod)", "statement": "For the library's wrap-around counter: exactly one of less/equal/greater holds for every pair, comparison is antisymmetric, increment then decrement is the identity, and isComparable is false exactly in the dead band.", "quantifier": "all widths, values and dead bands", "why_tests_cant": "all widths and values", "anchors": ["share/ulam/stdlib/UMod.ulam"]}
{"id": "C41", "title": "Byte stream array is a bounded FIFO", "statement": "For any history of writes and reads, the bytes read are exactly the bytes written, in order; writes beyond the capacity are refused without effect; EOF versus no-data-yet is reported exactly.", "quantifier": "all histories, all capacities", "why_tests_cant": "any history", "anchors": ["share/ulam/stdlib/ByteStreamArray.ulam"]}
{"id": "C42", "title": "Printed numbers read back", "statement": "Printing any Unsigned in any base from 2 to 35, or any Int, writes the digits of exactly that number without leading zeros.", "quantifier": "all numbers and bases", "why_tests_cant": "all values and bases", "anchors": ["share/ulam/stdlib/ByteStream.ulam:print"]}
{"id": "C43", "title": "Weighted selection is fair", "statement": "After any sequence of hits with positive weights (within counter range), each hit site is the pick with probability exactly its weight over the total weight.", "quantifier": "all sequences of hits and weights", "why_tests_cant": "probabilities over unbounded sequences", "anchors": ["share/ulam/stdlib/WindowServices.ulam:hit", "share/ulam/stdlib/WindowScanner.ulam:categorize", "share/ulam/misc/SelectorServices.ulam:check"]}
{"id": "C44", "title": "Max-weighted categories pick a maximum", "statement": "A site picked in a max-weighted scanner category always carries the greatest weight seen in the scan.", "quantifier": "all sequences of categorize calls and random outcomes", "why_tests_cant": "all sequences and random outcomes", "anchors": ["share/ulam/stdlib/WindowScanner.ulam:categorize", "share/ulam/stdlib/WindowScanner.ulam:initScan"]}
{"id": "C45", "title": "Minimize/maximize selectors find the extremum", "statement": "After any sequence of minimize (maximize) calls the selected value is the minimum (maximum) of the values offered, and the key belongs to a value attaining it.", "quantifier": "all sequences and random outcomes", "why_tests_cant": "all sequences and random outcomes", "anchors": ["share/ulam/misc/SelectorServices.ulam"]}
{"id": "C46", "title": "Random.between stays in range", "statement": "Random.between(lo,hi) always returns a value between its arguments, inclusive, for all Int arguments in either order and every random outcome.", "quantifier": "all argument pairs and random outcomes", "why_tests_cant": "all 32-bit pairs including overflowing spans", "anchors": ["share/ulam/stdlib/Random.ulam:between"]}
{"id": "C47", "title": "Colour mixing stays in channel range", "statement": "ColorUtils.between/dimmer/brighter produce channels between (or below/above) the inputs and never wrap; 0% and 100% give the end points exactly.", "quantifier": "all colours and percentages", "why_tests_cant": "all values", "anchors": ["share/ulam/stdlib/ColorUtils.ulam"]}
{"id": "C48", "title": "Event window save/restore round trip", "statement": "Saving an event window and later restoring it puts back exactly the saved atoms at every site within the saved radius and changes nothing outside it.", "quantifier": "all windows, radii and intermediate modifications", "why_tests_cant": "all contents and modifications", "anchors": ["share/ulam/stdlib/EventWindowBuffer.ulam"]}
{"id": "C49", "title": "Constant folding of arithmetic is exact or rejected", "statement": "A folded constant expression over literals denotes the mathematically exact value whenever no intermediate size was capped, and division or remainder by a zero constant is rejected.", "quantifier": "all constant expression trees", "why_tests_cant": "unbounded trees", "anchors": ["src/ulam/NodeBinaryOp.cpp:constantFold", "src/ulam/NodeBinaryOpArith.cpp", "src/ulam/NodeBinaryOpArithDivide.cpp"]}
{"id": "C50", "title": "Shown string text reads back as the string", "statement": "The quoted text that the compiler shows for a user string, read again as a string literal of the language, denotes the same string.", "quantifier": "all byte strings of length at most 255", "why_tests_cant": "escape interactions depend on neighbouring bytes", "anchors": ["src/ulam/StringPoolUser.cpp:formatDoubleQuotedString", "src/ulam/Lexer.cpp:nextByte"]}
{"id": "C51", "title": "File names determine the class compiled", "statement": "A file name is accepted for compilation exactly when it is a capitalised name followed by .ulam with no earlier .ulam in it, and then the class compiled is the name before the suffix; everything else is refused.", "quantifier": "all byte strings as file names", "why_tests_cant": "arbitrary names with repeated or overlapping suffixes", "anchors": ["src/ulam/UlamUtil.cpp:FindUlamFilenameSuffix", "src/ulam/CompilerState.cpp:getClassNameFromFileName"]}
{"id": "C52", "title": "64-bit constants are written without loss", "statement": "The text emitted for a 64-bit constant determines the constant: the two words written read back as its halves, and different constants have different texts.", "quantifier": "all 64-bit values", "why_tests_cant": "2^64 values", "anchors": ["src/ulam/UlamUtil.cpp:ToUnsignedDecimal", "src/ulam/UlamUtil.cpp:ToSignedDecimal"]}
{"id": "C53", "title": "The evaluator and the generated code agree on control flow", "statement": "For every program the parser accepts, running its body with the compiler's evaluator and running the C++ code generated for it perform the same actions in the same order and end the same way.", "quantifier": "all nestings of blocks, if, while, for, which, break, continue and return, all stores and all effects of expressions", "why_tests_cant": "Tests run small programs through one or the other; a continue in a for loop with a step and a break in the middle of a case are needed to see the difference.", "anchors": ["src/ulam/NodeControlWhile.cpp:eval", "src/ulam/NodeBreakStatement.cpp:eval", "src/ulam/NodeContinueStatement.cpp:eval", "src/ulam/NodeStatements.cpp:eval"]}
{"id": "C54", "title": "Evaluating an expression leaves the evaluation stack as it was", "statement": "When the evaluator evaluates any expression, every frame and slot pushed on the way is gone again afterwards: only the slot reserved for the result has changed, and when evaluation fails in the middle not even that.", "quantifier": "all expression trees, all effects and failures of their leaves, all stack contents", "why_tests_cant": "A leaked slot only shows in deep or failing expressions, and tests look at results, not at the stack.", "anchors": ["src/ulam/Node.cpp:evalNodeProlog", "src/ulam/CallStack.cpp:returnFrame", "src/ulam/NodeBinaryOp.cpp:eval"]}
{"id": "C55", "title": "The evaluator and the generated code agree on expressions", "statement": "For every expression, evaluating it with the compiler's evaluator and running the C++ code generated for it give the same value and the same effects.", "quantifier": "all expression trees, all stores and all effects of operands", "why_tests_cant": "Both are right for operands without side effects, which is nearly every test; the order of operands shows only when one operand changes what the other reads.", "anchors": ["src/ulam/NodeBinaryOp.cpp:genCode", "src/ulam/NodeBinaryOp.cpp:eval", "src/ulam/NodeBinaryOpCompare.cpp:genCode"]}
{"id": "C56", "title": "Array subscripts stay inside the array", "statement": "When a program is evaluated, a subscript into a packed array is accepted for reading or for storing exactly when it is at least 0 and below the size of the array.", "quantifier": "all item sizes, array sizes, positions of the array in its atom and subscripts", "why_tests_cant": "Whether a wrong subscript is caught depends on where the array happens to lie in the atom and on the subscript modulo 256.", "anchors": ["src/ulam/NodeSquareBracket.cpp:evalToStoreInto", "src/ulam/NodeSquareBracket.cpp:eval", "src/ulam/UlamValue.cpp:incrementPtr"]}
{"id": "C57", "title": "Copying a packed array copies every item", "statement": "When a program is evaluated, assigning a packed array that is a member of an object to an array variable gives the variable the same items and changes nothing else.", "quantifier": "all item sizes, array sizes, positions and contents", "why_tests_cant": "Sizes, justification and class items are treated by different code; a test sees one combination.", "anchors": ["src/ulam/CompilerState.cpp:assignArrayValues", "src/ulam/UlamValue.cpp:getPackedArrayDataFromAtom", "src/ulam/UlamValue.cpp:putPackedArrayDataIntoAtom"]}
{"id": "C58", "title": "The expression parser always stops", "statement": "Given any sequence of tokens, well formed or not, parsing an expression ends; what it leaves unread is exactly an end of the tokens it was given, so no token is invented, repeated or reordered by error recovery.", "quantifier": "all token sequences", "why_tests_cant": "Error recovery that gives a token back and tries again can loop; tests contain a few hundred broken programs, not all of them.", "anchors": ["src/ulam/Parser.cpp:parseAssignExpr", "src/ulam/Parser.cpp:parseFactor", "src/ulam/Parser.cpp:parseRestOfFunctionCallArguments"]}
{"id": "C59", "title": "Stream copying moves each byte once", "statement": "Copying at most max bytes from a stream to another takes the next bytes of the reader, as many as there are up to max, gives each of them to the writer once and in order, and returns the number of bytes the writer now holds more.", "quantifier": "all streams, contents, positions and limits", "why_tests_cant": "all contents and limits, full writers included", "anchors": ["share/ulam/stdlib/ByteStream.ulam:writeBytes", "share/ulam/stdlib/ByteStreamString.ulam"]}
{"id": "C60", "title": "Odds are what they say", "statement": "For all numbers n and m with m positive, oddsOf(n,m) answers true with probability exactly n/m (1 if n is at least m) and oneIn(m) with probability exactly 1/m; the Int version does the same for all Int arguments, with negative n never succeeding and nonpositive m counting as 1.", "quantifier": "all arguments, all draws of a uniform random source", "why_tests_cant": "a probability is a statement about all draws at once; tests only sample frequencies", "anchors": ["share/ulam/stdlib/Random.ulam:oddsOf", "share/ulam/stdlib/Random.ulam:oneIn"]}
{"id": "C61", "title": "Stochastic timers ring on time", "statement": "A timer with trigger level L that fits its counter and multiplier k needs k(2^L-1) calls of count on average before its alarm; its time never passes the trigger level, grows by at most one per call, and once the alarm is on it stays on until the timer is set or reset. The same holds for the reverse timer.", "quantifier": "all parameters, all draws, all numbers of calls", "why_tests_cant": "the mean waiting time is a limit over unboundedly many calls and all draws", "anchors": ["share/ulam/stdlib/XTimer.ulam:count", "share/ulam/stdlib/XTimer.ulam:alarm", "share/ulam/stdlib/RXTimer.ulam:count"]}
{"id": "C62", "title": "Points and distances of the plane", "statement": "For all C2D points the Manhattan distance is a metric, and it is the exact sum of the coordinate differences if these are at most 32767; sums and differences are exact whenever representable and the nearest representable point otherwise; clamp answers a point of the box and leaves points of the box alone; contains tells exactly the points of the box from the origin; the euclidean squared length is x*x+y*y; the eight directions are the eight neighbors, opposite directions are opposite points, and corners are at distance 4.", "quantifier": "all pairs and triples of points with 16 bit coordinates", "why_tests_cant": "2^96 triples of points", "anchors": ["share/ulam/stdlib/C2D.inc"]}
{"id": "C63", "title": "Telomeres bound a colony", "statement": "A colony grown by Telomere.dup from one member of age zero, in any order of calls and sites, never shrinks, never exceeds a fixed size that depends on the width only, and has exactly that size (documented as 2**(2**(width-1))) when no member can divide any more.", "quantifier": "all widths, all orders of calls, all site layouts", "why_tests_cant": "unboundedly many orders of calls", "anchors": ["share/ulam/misc/Telomere.ulam:dup"]}
{"id": "C64", "title": "Default value of a class", "statement": "The default value of a class holds, for each data member the class declares or inherits, the member's initial value, or the default value of the member's class once per array item, or the empty atom for Atom members, or zeros, at the position the layout gives to the member (inherited members inside the part of their base class); in an element it starts with the element's type field; no other bit is set. It exists when no class contains itself through members and bases, and a class that contains itself never gets one.", "quantifier": "for all programs with any number of classes, any multiple inheritance without cycles, any members, initial values and array sizes, for classes that are not unions", "why_tests_cant": "tests fix a few hierarchies; overlap of a base's default with other members depends on the shape of the whole hierarchy and on the sizes", "anchors": ["src/ulam/NodeBlockClass.cpp:buildDefaultValue", "src/ulam/NodeVarDeclDM.cpp:buildDefaultValue", "src/ulam/SymbolClass.cpp:getDefaultValue", "src/ulam/CompilerState.cpp:getDefaultClassValue", "src/ulam/CompilerState.cpp:getDefaultAsArray"]}
{"id": "C65", "title": "Initialization lists", "statement": "An object initialized by a list of named members has the given values in these members, nested lists changing only the members they name, and its default value everywhere else; a list that names a member of some bits twice is refused, and a list that names no member twice is accepted. In an array list each item has its value, and items beyond the list repeat the last one.", "quantifier": "for all classes (not unions) of all checked programs, all lists of any length and nesting, all values and array sizes", "why_tests_cant": "whether two items of a list touch the same bits depends on layout of the class and its bases; tests cannot enumerate lists or hierarchies", "anchors": ["src/ulam/NodeInitDM.cpp:initDataMemberConstantValue", "src/ulam/NodeListClassInit.cpp:initDataMembersConstantValue", "src/ulam/NodeListArrayInitialization.cpp:buildArrayValueInitialization", "src/ulam/NodeListArrayInitialization.cpp:buildClassArrayValueInitialization", "src/ulam/SymbolWithValue.cpp:isValueAllZeros"]}
{"id": "C66", "title": "A name in a function body stands for the nearest declaration in scope", "statement": "In the body of a function, every use of a name is bound to the nearest declaration that is in scope at that point: a declaration holds from the end of its initial value to the end of its block, inner blocks come before outer ones, then the members of the class, of its ancestors in order, and the definitions of the file. A function in which some name has no such declaration, or in which one block declares a name twice, is rejected, and every other one is accepted.", "quantifier": "for all surroundings (class members, ancestors, file), all function bodies (any nesting and order of declarations, uses and blocks)", "why_tests_cant": "the compiler fills all tables first and then moves each use outwards pass by pass, so the result depends on the whole nest of blocks and on where every declaration of the same name stands; tests try a few shadowings", "anchors": ["src/ulam/NodeIdent.cpp:checkUsedBeforeDeclared", "src/ulam/NodeIdent.cpp:checkAndLabelType", "src/ulam/NodeIdent.cpp:checkVarUsedBeforeDeclared", "src/ulam/CompilerState.cpp:alreadyDefinedSymbol", "src/ulam/NodeVarDecl.cpp:checkAndLabelType", "src/ulam/Compiler.cpp:checkAndTypeLabelProgram"]}
{"id": "C67", "title": "A cast means the same at compile time and at run time", "statement": "A cast between scalar primitive types that the compiler accepts has the same result, bit by bit, whether the compiler evaluates it or the generated program does: a number becomes the nearest number of the destination type, a truth value 1 or 0, a number cast to Bool tells whether it is zero, casts from and to Bits keep the low bits. A cast that was not asked for loses nothing.", "quantifier": "for all pairs of scalar primitive types up to 64 bits and String, all values, explicit and implicit casts, constant and not, given conversion functions of the runtime library that do what their names say", "why_tests_cant": "64 sizes times 6 kinds on both sides and all values; tests run the evaluator and the generated code on a few constants", "anchors": ["src/ulam/NodeCast.cpp:eval", "src/ulam/NodeCast.cpp:genCodeReadIntoATmpVar", "src/ulam/NodeCast.cpp:needsACast", "src/ulam/UlamTypePrimitive.cpp:castMethodForCodeGen", "src/ulam/UlamTypePrimitiveInt.cpp:cast", "src/ulam/UlamTypePrimitiveBool.cpp:castTo64", "src/ulam/UlamTypePrimitiveBits.cpp:explicitlyCastable", "src/ulam/UlamTypePrimitiveString.cpp:castTo64"]}
{"id": "C68", "title": "A constant is accepted exactly when it fits", "statement": "A literal or named constant is accepted where a numeric type is expected exactly when its number is a number of that type, whatever the constant's own type, and where Bits are expected exactly when its bits fit; an accepted constant has the same value in the new type, in the evaluator and in the generated program.", "quantifier": "for all scalar primitive types up to 64 bits, all constants, given library functions that do what their names say", "why_tests_cant": "the decision is made by converting the value forth and back with saturating functions of two word sizes; tests try a few limits of a few sizes", "anchors": ["src/ulam/NodeTerminal.cpp:fitsInBits", "src/ulam/NodeTerminal.cpp:convertForthAndBack", "src/ulam/NodeTerminal.cpp:safeToCastTo", "src/ulam/NodeConstant.cpp:safeToCastTo"]}
{"id": "C69", "title": "Comparison, bitwise, logical and conditional operators mean what they say", "statement": "An accepted comparison of two numbers of any types compares the numbers, of two Bools the truth values, with Bits the bit patterns; accepted bitwise operators combine the operands' bits, padded with zeros; && and || combine truth values and take the right operand only when needed; c ? a : b has the value of the chosen branch - each the same in the evaluator and in the generated program. A comparison of numbers is accepted exactly when both are unsigned or some signed type of the larger word holds all values of both.", "quantifier": "for all pairs of scalar primitive types up to 64 bits, all values, given library functions that do what their names say", "why_tests_cant": "all pairs of types and values; operands are cast to a common type computed from both, so a wrong size shows only at limits of certain pairs", "anchors": ["src/ulam/NodeBinaryOpCompare.cpp:calcNodeType", "src/ulam/NodeBinaryOpCompareEqualEqual.cpp:calcNodeType", "src/ulam/NodeBinaryOpCompare.cpp:doBinaryOperationImmediate", "src/ulam/NodeBinaryOpBitwise.cpp:calcNodeType", "src/ulam/NodeBinaryOpLogical.cpp:checkAndLabelType", "src/ulam/NodeBinaryOpLogicalAnd.cpp:eval", "src/ulam/NodeQuestionColon.cpp:calcNodeType", "src/ulam/NodeQuestionColon.cpp:genCode"]}
{"id": "C70", "title": "Expressions with side effects mean the same at compile time and at run time", "statement": "An expression with side effects (assignments, increments, function calls) gives the same value, the same changes and the same stop whether the compiler evaluates it or the generated program does. What stands right of a deciding && or || and the branch of ?: not taken have no effect in either.", "quantifier": "for all expressions of any nesting, all memories, all functions (arbitrary partial functions of arguments and memory) and operators", "why_tests_cant": "the two sides walk the operands in opposite orders, which shows only in expressions whose operands interfere; tests use few such expressions, and each on one side only", "anchors": ["src/ulam/NodeBinaryOp.cpp:eval", "src/ulam/NodeBinaryOp.cpp:genCode", "src/ulam/NodeBinaryOpEqual.cpp:eval", "src/ulam/NodeBinaryOpEqual.cpp:genCode", "src/ulam/NodeFunctionCall.cpp:evalArgumentsInReverseOrder", "src/ulam/NodeFunctionCall.cpp:genCode", "src/ulam/NodeBinaryOpEqualArith.cpp:genCode", "src/ulam/NodeBinaryOpLogicalAnd.cpp:genCode"]}
{"id": "C71", "title": "A subscript names its item, whatever its type and wherever it is computed", "statement": "An index of any numeric type, constant or not, selects the item of that number, the same item in the evaluator and in the generated program, or is refused or stops the program when there is no such item; the same for the bytes of a string. Index expressions of other types are refused.", "quantifier": "for all arrays (item sizes, sizes, places) and strings, all index types up to 64 bits and all numbers, constant or not, given library conversions that do what their names say", "why_tests_cant": "the test is made with different C types for each kind and size of index and is left out for constants; tests use small non-negative Ints", "anchors": ["src/ulam/NodeSquareBracket.cpp:checkAndLabelType", "src/ulam/NodeSquareBracket.cpp:getArraysizeInBracket", "src/ulam/NodeSquareBracket.cpp:eval", "src/ulam/NodeSquareBracket.cpp:evalToStoreInto", "src/ulam/NodeSquareBracket.cpp:evalAUserStringByte", "src/ulam/NodeSquareBracket.cpp:genCodeToStoreInto", "src/ulam/NodeSquareBracket.cpp:genCodeAUserStringByte", "src/ulam/Node.cpp:genCodeConvertATmpVarIntoAutoRef"]}
{"id": "C72", "title": "Arithmetic gives the exact number or the nearest one", "statement": "An accepted a + b, a - b, a * b, a / b, a % b on numbers of any types has the exact result on the operands' own numbers, or the nearest number of the result's type, the same in the evaluator and in the generated program. Results of fewer bits than the word are exact, but for negative differences of unsigned numbers; quotients and remainders are exact. It is accepted exactly when both are unsigned or some signed type of the larger word holds all values of both; a constant division by zero is an error.", "quantifier": "for all pairs of numeric types up to 64 bits, all values, constant or not, given library functions that do what their names say", "why_tests_cant": "result types are computed from both operand types and the operator, and division results are cast down once more; a size one bit short shows only at limits of certain pairs", "anchors": ["src/ulam/NodeBinaryOpArith.cpp:calcNodeType", "src/ulam/NodeBinaryOp.cpp:doBinaryOperationImmediate", "src/ulam/NodeBinaryOpArithAdd.cpp:makeImmediateBinaryOp", "src/ulam/NodeBinaryOpArithDivide.cpp:castThyselfToResultType", "src/ulam/NodeBinaryOpArithDivide.cpp:makeImmediateBinaryOp", "src/ulam/NodeBinaryOpArithRemainder.cpp:castThyselfToResultType", "src/ulam/UlamTypePrimitiveInt.cpp:bitsizeToConvertTypeTo"]}
{"id": "C73", "title": "Shifts move bits by the number on the right", "statement": "An accepted a << b or a >> b moves the bits of a by the number b, the same in the evaluator and in the generated program; a left shift whose result has fewer bits than the word loses none.", "quantifier": "for all left operands up to 64 bits, all distance types and distances below the word size, given library functions that do what their names say", "why_tests_cant": "the distance is read with the length of the result, the size of the result is computed by a shift of its own; tests shift 8- or 32-bit values by small distances", "anchors": ["src/ulam/NodeBinaryOpShift.cpp:calcNodeType", "src/ulam/NodeBinaryOpShiftLeft.cpp:makeImmediateBinaryOp", "src/ulam/NodeBinaryOpShiftRight.cpp:makeImmediateBinaryOp", "src/ulam/NodeBinaryOpShiftLeft.cpp:resultBitsize", "src/ulam/NodeBinaryOpShift.cpp:methodNameForCodeGen"]}
{"id": "C74", "title": "Unary operators and compound assignments mean what they say", "statement": "-x is the negated number or the nearest its type has, !x the opposite truth, ~x every bit inverted, +x itself; l op= r leaves the result of the operator on the numbers (or bits) of both in l, the nearest number if l has no such number; ++ and -- do the same with one, giving the new value before and the old one after - each the same in the evaluator and in the generated program. An arithmetic assignment is accepted exactly when the right number is one of the left type (always, or for a constant this time), ++ and -- for all numeric types but Int(1), - exactly when all numbers of the operand are numbers of the Int of its size.", "quantifier": "for all operand types up to 64 bits, all values, constant or not, given library functions that do what their names say", "why_tests_cant": "all pairs of types and values; right operands are cast to the left type, constants judged by value, and saturation shows only at limits", "anchors": ["src/ulam/NodeUnaryOpMinus.cpp:calcNodeType", "src/ulam/NodeUnaryOpBang.cpp:calcNodeType", "src/ulam/NodeUnaryOpTwiddle.cpp:calcNodeType", "src/ulam/NodeUnaryOp.cpp:doUnaryOperationImmediate", "src/ulam/NodeUnaryOp.cpp:genCode", "src/ulam/NodeBinaryOpEqualArith.cpp:checkAndLabelType", "src/ulam/NodeBinaryOpEqualBitwise.cpp:checkAndLabelType", "src/ulam/NodeBinaryOpEqualShift.cpp:checkAndLabelType", "src/ulam/NodeBinaryOpEqual.cpp:doBinaryOperationImmediate", "src/ulam/NodeBinaryOpEqualArith.cpp:genCode", "src/ulam/NodeBinaryOpEqualArithPostIncr.cpp:eval"]}
{"id": "C75", "title": "The limits of a type are its limits", "statement": "T.maxof and T.minof are constants of type T: the greatest and the least number of every numeric type, true and false of every Bool, the same in the evaluator and in the generated program. Types without limits are refused. T.classidof is the class's registration number, T.classidof.maxof bounds all of them and fits in T.classidof.sizeof bits.", "quantifier": "for all types of 1 to 64 bits, given library conversions that do what their names say", "why_tests_cant": "the limits are computed with masks and sign extensions apart for 32- and 64-bit words, with the full word a special case; all 64 sizes of five kinds are more than tests try", "anchors": ["src/ulam/NodeTerminalProxy.cpp:setConstantValue", "src/ulam/NodeTerminalProxy.cpp:setConstantTypeForNode", "src/ulam/NodeTerminalProxy.cpp:eval", "src/ulam/UlamTypePrimitive.cpp:getMax", "src/ulam/UlamTypePrimitive.cpp:getMin", "src/ulam/NodeTerminal.cpp:makeTerminalValue", "src/ulam/NodeTerminal.cpp:genCodeReadIntoATmpVar"]}
{"id": "C76", "title": "The size and the length of a type are its size and length", "statement": "T.sizeof is the number of bits of one item (96 for an element) times the number of items, lengthof an array its number of items, lengthof a constant string its number of characters, each the same in the evaluator and in the generated program. lengthof any other scalar is refused, unless it is a class that defines alengthof, which is then called.", "quantifier": "for all types, numbers of items and constant strings of programs with fewer than 2^18 strings", "why_tests_cant": "sizes are products in C types of 32 bits; tests use small arrays", "anchors": ["src/ulam/NodeTerminalProxy.cpp:setConstantValue", "src/ulam/NodeTerminalProxy.cpp:constantFoldLengthofConstantString", "src/ulam/UlamType.cpp:getTotalBitSize", "src/ulam/UlamTypeClassElement.cpp:getSizeofUlamType", "src/ulam/CompilerState.cpp:getUserStringLength"]}
{"id": "C77", "title": "A declared size is the one written, or is refused", "statement": "T(e) is accepted exactly when e is between 1 and the most bits T may have, and has that many bits (an even number for Bool gives one less); T[e] is accepted exactly when e is not negative and the items have at most 8192 bits in all, and has e items.", "quantifier": "for all size expressions of every numeric type and every value", "why_tests_cant": "the value is read with several integer types on the way; values beyond 32 bits or whose total wraps are not what tests declare", "anchors": ["src/ulam/NodeTypeBitsize.cpp:getTypeBitSizeInParen", "src/ulam/NodeTypeDescriptor.cpp:resolveTypeBitsize", "src/ulam/NodeSquareBracket.cpp:getArraysizeInBracket", "src/ulam/NodeTypeDescriptorArray.cpp:resolveTypeArraysize", "src/ulam/CompilerState.cpp:setSizesOfNonClassAndArrays"]}
{"id": "C78", "title": "Generated class information is the inheritance declared", "statement": "In the generated program the position of a class in an object, asked by registration number, is where the layout puts it, for the class itself and every ancestor, and not found for any other number; so the test whether a class is related holds exactly for itself and its ancestors. The enumeration of bases gives the class, then its declared bases, then the other ancestors, each once, as many as the numbers of bases and direct bases say; a class is a direct base exactly when declared so.", "quantifier": "for all acyclic inheritance graphs, classes, registration numbers and layouts below 2^31 bits", "why_tests_cant": "the cases of the generated switch come from tables built by three other passes; tests use a few small hierarchies", "anchors": ["src/ulam/NodeBlockClass.cpp:genCodeBuiltInFunctionGetRelPosRelatedInstanceByRegistrationNumber", "src/ulam/NodeBlockClass.cpp:genCodeBuiltInIsMethodByRegistrationNumber", "src/ulam/NodeBlockClass.cpp:generateBuiltInFunctionGetOrderedBaseClassEntry", "src/ulam/NodeBlockClass.cpp:genCodeBuiltInFunctionIsDirectBaseClassByRegistrationNumber", "src/ulam/SymbolClass.cpp:countDirectSharedBases", "src/ulam/SymbolClass.cpp:determineSharedBasesAndTotalBitsize"]}
{"id": "C79", "title": "is and as tell the class of an object", "statement": "x is T, and x as T, hold exactly when T is the class of the object x or an ancestor of it, whether x is a class variable, an atom or a reference to a part of the object, the same in the evaluator and in the generated program. A T refused for its kind could never hold.", "quantifier": "for all acyclic inheritance graphs, objects, pointers and values that agree on the class of the object, and classes T, given a library that finds the class of an element type", "why_tests_cant": "the evaluator looks for the class in three places (pointer, value, declared type) with nine kinds of cases; tests have one or two of each", "anchors": ["src/ulam/NodeConditionalIs.cpp:eval", "src/ulam/NodeConditionalIs.cpp:genCodeAtomIs", "src/ulam/NodeConditionalIs.cpp:genCodeReferenceIs", "src/ulam/NodeConditionalAs.cpp:eval", "src/ulam/NodeConditionalAs.cpp:genCode", "src/ulam/NodeConditionalAs.cpp:checkAndLabelType", "src/ulam/CompilerState.cpp:isClassASubclassOf"]}
{"id": "C80", "title": "A pointer to a part of an object is at that part", "statement": "In the evaluator, a pointer to a part of an object of a class is where the object starts plus the place of the part's class in the layout. Casting to a base class or back, casting an atom, self, super, naming a base, and as, all lead from such a pointer to such a pointer in the same object, and a data member is at its offset in the part of the class that declares it.", "quantifier": "for all acyclic inheritance graphs, layouts, objects within an atom, parts and members", "why_tests_cant": "each operation corrects the position in its own way, by differences of positions looked up in one of two classes; a wrong class shows only with several bases of different sizes", "anchors": ["src/ulam/NodeCast.cpp:evalToStoreInto", "src/ulam/NodeIdent.cpp:makeUlamValuePtr", "src/ulam/NodeMemberSelectByBaseClassType.cpp:evalToStoreInto", "src/ulam/NodeConditionalAs.cpp:eval", "src/ulam/UlamValue.cpp:setPtrPos", "src/ulam/UlamValue.cpp:makePtr", "src/ulam/CompilerState.cpp:getABaseClassRelativePositionInAClass"]}
{"id": "C81", "title": "Code is generated only from a program without an error", "statement": "If code generation starts, then every earlier stage of the compilation ran, none of them reported an error, and nothing the user was shown is headed ERROR. The number the compilation returns is 0 exactly when code was generated and still nothing shown is an error; if it is not 0 something shown to the user says so. The exit status of the compiler says the same.", "quantifier": "for all files, all messages any stage reports in any round, all answers of the stages, all message modes", "why_tests_cant": "the count of errors is cleared, carried over and looked at in a dozen places, waits become errors only in the last round; each test fails in one stage only", "anchors": ["src/ulam/Compiler.cpp:compileFiles", "src/ulam/Compiler.cpp:checkAndTypeLabelProgram", "src/ulam/Compiler.cpp:resolvingLoop", "src/ulam/Compiler.cpp:compileFile", "src/ulam/Parser.cpp:parseProgram", "src/ulam/ErrorMessageHandler.cpp:buildMessage", "src/drivers/culam/main.cpp:main"]}
{"id": "C82", "title": "A message is shown once and every error is counted", "statement": "The messages written to the user are exactly those whose kind is turned on (a wait that became an error counts as an error), reported after the output file was given, in the order of their first report, each text once. The error count is the number of errors reported since the counts were last cleared, whether shown or not.", "quantifier": "for all sequences of uses of the message handler and all modes", "why_tests_cant": "duplicates are recognized by their full text, and only if a file is attached; sequences mixing modes, clears and waits are not tested", "anchors": ["src/ulam/ErrorMessageHandler.cpp:buildMessage", "src/ulam/ErrorMessageHandler.cpp:outputMsg", "src/ulam/ErrorMessageHandler.cpp:clearCounts", "src/ulam/ErrorMessageHandler.cpp:changeWaitToErrMode", "src/ulam/ErrorMessageHandler.cpp:revertToWaitMode"]}
{"id": "C83", "title": "All files of a program are read, once", "statement": "A class name on the command line, with or without the suffix, stands for its file. The reading of files ends; no file is parsed twice; when it ends without an error, every file asked for has declared the class it is named after, and every class named but not declared has no file.", "quantifier": "for all sets of files, all contents and all orders in which unseen classes are gone through", "why_tests_cant": "files name one another in cycles and in any order; which class is unseen at which moment depends on all files before", "anchors": ["src/ulam/Compiler.cpp:compileFiles", "src/ulam/Compiler.cpp:compileFile", "src/ulam/CompilerState.cpp:getUnseenClassFilenames", "src/ulam/CompilerState.cpp:addIncompleteClassSymbolToProgramTable", "src/ulam/CompilerState.cpp:removeIncompleteClassSymbolFromProgramTable", "src/ulam/Parser.cpp:parseProgram", "src/ulam/SourceStream.cpp:push", "src/drivers/culam/main.cpp:AddClassName"]}
{"id": "C84", "title": "The size of a class is the sum of its parts", "statement": "Working out class sizes ends. A class that has a size has the bits of its data members (the largest for a union, a whole atom for each element in a transient, items times the size for an array) plus the own bits of each of its ancestors once, and is within the limit for its kind. The answer that all classes are sized is given only when they are. If no class contains itself and the sizes are within the limits, every class gets its size in as many rounds as it is deep, without an error; the order of the classes makes no difference.", "quantifier": "for all sets of class declarations with any members, arrays and bases, all orders of the table, any number of rounds, and whatever types are known in each round", "why_tests_cant": "sizes are found by mutual recursion through a mutable table, over several rounds in table order; a class counted twice or a base size lost shows only for certain orders of the classes", "anchors": ["src/ulam/SymbolTableOfClasses.cpp:setBitSizeOfTableOfClasses", "src/ulam/SymbolClassName.cpp:setBitSizeOfClassInstances", "src/ulam/SymbolClass.cpp:trySetBitsizeWithUTIValues", "src/ulam/SymbolClass.cpp:determineSharedBasesAndTotalBitsize", "src/ulam/SymbolTableOfVariables.cpp:getTotalVariableSymbolsBitSize", "src/ulam/SymbolTableOfVariables.cpp:getMaxVariableSymbolsBitSize", "src/ulam/SymbolTableOfVariables.cpp:calcVariableSymbolTypeSize", "src/ulam/CompilerState.cpp:setUTISizes", "src/ulam/NodeTypeDescriptorArray.cpp:resolveTypeArraysize"]}
{"id": "C85", "title": "A class that contains itself is found out", "statement": "A class that contains itself, through data members, arrays or ancestors, never gets a size. If it contains itself through data members that are no arrays, an error is given in the first round in which nothing it contains waits for a base, an array or a name.", "quantifier": "for all sets of class declarations, cycles of any length, orders of the table and numbers of rounds", "why_tests_cant": "a cycle is recognized by marks left in the type table by an unfinished computation; longer cycles entered at any point, with other classes in between, are not tested", "anchors": ["src/ulam/SymbolTableOfVariables.cpp:calcVariableSymbolTypeSize", "src/ulam/SymbolClass.cpp:trySetBitsizeWithUTIValues", "src/ulam/SymbolClassName.cpp:setBitSizeOfClassInstances", "src/ulam/NodeTypeDescriptorArray.cpp:resolveTypeArraysize"]}
{"id": "C86", "title": "A virtual call runs the function of the object's own class", "statement": "A call of a virtual function on an object runs the most specific function for it between the class of the object and the class where it was found, whichever variable, reference, data member or returned reference it is called on; called on `super` or on a part named by its base class it runs the one of that class. The evaluator and the generated code choose the same function; inside it `self` is the part of the function's class of that same object; a pure function is reported instead of run.", "quantifier": "for all hierarchies and declarations, objects of any class at any place, left sides of any length, and any other variables in scope", "why_tests_cant": "the choice depends on the left side, on the object and on an accidental lookup of the variable's name in the current scope; tests have one or two levels and mostly distinct names", "anchors": ["src/ulam/NodeFunctionCall.cpp:checkAndLabelType", "src/ulam/NodeFunctionCall.cpp:getVirtualFunctionForEval", "src/ulam/NodeFunctionCall.cpp:evalHiddenArguments", "src/ulam/NodeFunctionCall.cpp:genCodeVirtualFunctionCallVTableEntry", "src/ulam/NodeFunctionCall.cpp:specifyimplicitselfexplicitly"]}
{"id": "C87", "title": "Nothing declared constant is changed", "statement": "In a program the compiler accepts, running a function changes no named constant and no object that the function was given only by constant references; and what is not declared constant can be assigned to, called functions on and bound to references.", "quantifier": "for all programs of any functions, expressions and statements, all memories and all runs of any length", "why_tests_cant": "whether a place may be stored into is a flag each kind of expression works out in its own way; tests try single kinds, not what a chain of them, a call or a returned reference lets through", "anchors": ["src/ulam/NodeIdent.cpp:checkAndLabelType", "src/ulam/NodeMemberSelect.cpp:setStoreIntoAbleAndReferenceAble", "src/ulam/NodeMemberSelect.cpp:checkStoreIntoAble", "src/ulam/NodeSquareBracket.cpp:checkAndLabelType", "src/ulam/NodeQuestionColon.cpp:checkAndLabelType", "src/ulam/NodeStorageof.cpp:checkAndLabelType", "src/ulam/NodeCast.cpp:checkAndLabelType", "src/ulam/NodeBinaryOpEqual.cpp:checkStoreIntoAble", "src/ulam/NodeFunctionCall.cpp:checkAndLabelType", "src/ulam/SymbolFunction.cpp:matchingTypes", "src/ulam/NodeVarRef.cpp:checkAndLabelType", "src/ulam/NodeReturnStatement.cpp:checkAndLabelType"]}
{"id": "C88", "title": "Variables in scope at once never share storage", "statement": "In the evaluator, two local variables that are in scope at the same time have no slot of the frame in common: storing into one leaves the other. Every slot of a variable is inside the frame made for the call.", "quantifier": "for all function bodies: any nesting of blocks, conditionals, loops, choices and calls, variables of any sizes, any state of the stack", "why_tests_cant": "slots are reused between blocks, and the depth goes through every kind of node; tests have few variables and never enough nested expressions for the sums to wrap", "anchors": ["src/ulam/NodeVarDecl.cpp:calcMaxDepth", "src/ulam/NodeBlock.cpp:calcMaxDepth", "src/ulam/NodeStatements.cpp:calcMaxDepth", "src/ulam/NodeControlIf.cpp:calcMaxDepth", "src/ulam/NodeControl.cpp:calcMaxDepth", "src/ulam/NodeQuestionColon.cpp:calcMaxDepth", "src/ulam/NodeFunctionCall.cpp:calcMaxDepth", "src/ulam/SymbolFunctionName.cpp:calcMaxDepthOfFunctions", "src/ulam/CallStack.cpp:storeUlamValueInSlot"]}
{"id": "C89", "title": "Each parameter holds its argument", "statement": "When the body of a called function begins to run in the evaluator, every slot of every parameter holds the value given for it and `self` is the object it was called on. What is returned is stored apart from all of these, and after the call the caller's stack is as it was before.", "quantifier": "for all functions with any number of parameters of any sizes, any arguments and any stack", "why_tests_cant": "arguments are pushed last to first with hidden ones after them, while the slots of the parameters are worked out elsewhere with negative numbers; tests have few parameters, seldom larger than one slot", "anchors": ["src/ulam/NodeFunctionCall.cpp:evalArgumentsInReverseOrder", "src/ulam/NodeFunctionCall.cpp:evalHiddenArguments", "src/ulam/NodeBlockFunctionDefinition.cpp:calcMaxDepth", "src/ulam/NodeBlockFunctionDefinition.cpp:eval", "src/ulam/NodeList.cpp:calcMaxDepth", "src/ulam/CallStack.cpp:addFrameSlots", "src/ulam/CallStack.cpp:returnFrame", "src/ulam/CallStack.cpp:loadUlamValueFromSlot"]}
{"id": "C90", "title": "A local reference stands for what it was bound to", "statement": "In the evaluator, reading or storing through a local reference reads or stores what the running call bound it to, whatever calls happen in between and whatever those calls bind.", "quantifier": "for all programs of functions with references, reference parameters, conditionals and calls, and all runs of any length", "why_tests_cant": "the place is kept outside the frame, so that a mistake shows only when a call in between binds the same reference again", "anchors": ["src/ulam/NodeVarRef.cpp:eval", "src/ulam/NodeIdent.cpp:makeUlamValuePtr", "src/ulam/NodeIdent.cpp:evalToStoreInto", "src/ulam/NodeFunctionCall.cpp:evalArgumentsInReverseOrder", "src/ulam/SymbolVariableStack.cpp:setAutoPtrForEval", "src/ulam/SymbolVariableStack.cpp:getAutoPtrForEval"]}
{"id": "C91", "title": "Named constants have the values of their expressions", "statement": "In a program the compiler accepts, every named constant of a class has the value its expression is worth, whatever the order of the declarations; constants that need each other are refused; and when no constant needs itself and every expression is worth a value, the program is accepted.", "quantifier": "for all sets of constants in classes and file scopes, all expressions over them, all orders of declaration", "why_tests_cant": "values are found by repeated passes that replace parts of the expressions until nothing waits or a limit is reached; tests have few constants, seldom declared after their use", "anchors": ["src/ulam/Compiler.cpp:checkAndTypeLabelProgram", "src/ulam/Compiler.cpp:resolvingLoop", "src/ulam/NodeConstantDef.cpp:checkAndLabelType", "src/ulam/NodeConstantDef.cpp:foldConstantExpression", "src/ulam/NodeConstant.cpp:checkAndLabelType", "src/ulam/NodeConstant.cpp:updateConstant", "src/ulam/NodeIdent.cpp:checkAndLabelType", "src/ulam/NodeIdent.cpp:replaceOurselves", "src/ulam/NodeBinaryOp.cpp:checkAndLabelType", "src/ulam/NodeBinaryOp.cpp:constantFold", "src/ulam/NodeUnaryOp.cpp:checkAndLabelType", "src/ulam/NodeQuestionColon.cpp:checkAndLabelType", "src/ulam/NodeQuestionColon.cpp:constantFold", "src/ulam/CompilerState.cpp:turnWaitMessageIntoErrorMessage", "src/ulam/CompilerState.cpp:countNavHzyNoutiNodesPass"]}
{"id": "C92", "title": "A use of a class template binds every parameter", "statement": "A use of a class template is accepted exactly when its arguments are no more than the parameters and every parameter without an argument has a default value. Then each parameter stands for its argument, worked out where the use is, or for its default value, worked out among the parameters of the instance; and it makes no difference whether the template or its use is met first.", "quantifier": "for all parameter lists and all argument lists, whatever the expressions, and any set of arguments still to be worked out", "why_tests_cant": "uses before the template go through a path of their own, with temporary names that are put right later; tests pair few parameter lists with few uses", "anchors": ["src/ulam/Parser.cpp:parseRestOfClassParameters", "src/ulam/Parser.cpp:parseClassArguments", "src/ulam/Parser.cpp:parseRestOfClassArguments", "src/ulam/SymbolClassNameTemplate.cpp:fixAClassStubsDefaultArgs", "src/ulam/SymbolClassNameTemplate.cpp:fixAnyUnseenClassInstances", "src/ulam/Resolver.cpp:constantFoldNonreadyClassArgs"]}
{"id": "C93", "title": "Uses of a template with the same arguments are one class", "statement": "Two uses of a class template that have become full classes are the same class exactly when their arguments have the same values; once a use has become a full class it stays that class; and programs are not refused for using an instance often.", "quantifier": "for all histories of uses made, arguments worked out and rounds of instantiation, in any order", "why_tests_cant": "which use becomes the class and which are merged into it depends on the order in which arguments get their values; tests have few uses and small type numbers", "anchors": ["src/ulam/SymbolClassNameTemplate.cpp:fullyInstantiate", "src/ulam/SymbolClassNameTemplate.cpp:findClassInstanceByArgString", "src/ulam/SymbolClassNameTemplate.cpp:addClassInstanceByArgString", "src/ulam/CompilerState.cpp:mergeClassUTI", "src/ulam/CompilerState.cpp:replaceUTIKeyAndAlias", "src/ulam/CompilerState.cpp:findRootUTIAlias"]}
{"id": "C94", "title": "A text of statements has one reading, the grammar's", "statement": "When the parser reads the body of a function and reports nothing, the tokens between the braces are exactly the written form of the statements it found, and these follow the grammar: braces group, an `else` belongs to the nearest `if` that has none, an `if`, `else`, `while` or `for` without braces takes exactly one statement, the body of a case is a block, `otherwise` is the last label. Conversely every list of statements of the grammar is accepted and found again, no text has two readings, reading ends on every text, and the generated code does what the reading found means.", "quantifier": "for all token texts (expressions and declarations as single tokens), all nesting depths, all numbers of statements, cases and labels", "why_tests_cant": "The tests parse a few hundred fixed programs; that nothing outside the grammar slips through and that each nesting of if/else/loops/which is attached correctly is a statement about infinitely many texts.", "anchors": ["src/ulam/Parser.cpp:parseBlock", "src/ulam/Parser.cpp:parseStatements", "src/ulam/Parser.cpp:parseStatementAsBlock", "src/ulam/Parser.cpp:parseControlIf", "src/ulam/Parser.cpp:parseControlFor", "src/ulam/Parser.cpp:parseControlSwitch", "src/ulam/Parser.cpp:parseRestOfCase", "src/ulam/Parser.cpp:parseSimpleStatement"]}
{"id": "C95", "title": "A call gives back what the return statement that ran says", "statement": "A function whose return statements are accepted gives back, when called, the value of the expression of the return statement that ran, cast to the function's return type; `return;` and Void expressions are accepted only in functions that return Void, and an ordinary function that returns something must have a return statement. The generated code and the compiler's evaluator agree on the result. A function that does not return Void always gives back a value.", "quantifier": "for all bodies (any nesting of conditions, loops and cases), all return types and expression types, all stores, all numbers of loop turns", "why_tests_cant": "Tests call functions that do return; whether every accepted function gives a value on every path, through loops that a return leaves, is a statement about all control flows.", "anchors": ["src/ulam/NodeReturnStatement.cpp:checkAndLabelType", "src/ulam/NodeReturnStatement.cpp:eval", "src/ulam/NodeReturnStatement.cpp:genCode", "src/ulam/CompilerState.cpp:checkFunctionReturnNodeTypes", "src/ulam/NodeBlockFunctionDefinition.cpp:checkAndLabelType", "src/ulam/NodeBlockFunctionDefinition.cpp:eval"]}
{"id": "C96", "title": "A member name stands for the class's own member or the inherited one", "statement": "A member name used on an object of a class stands for the member the class itself declares, or else for one declared by an ancestor that no class in between declares anew; it stands for something whenever the class or an ancestor declares it; a data member is refused exactly when a proper ancestor declares its name; and a name that two bases declare independently is not taken silently.", "quantifier": "for all class hierarchies (multiple and shared bases, aliases), all sets of members, all names", "why_tests_cant": "The search walks the bases depth first; that it meets the right declaration in every hierarchy, diamonds included, is a statement about all inheritance graphs, of which the tests have a handful.", "anchors": ["src/ulam/CompilerState.cpp:alreadyDefinedSymbol", "src/ulam/CompilerState.cpp:alreadyDefinedSymbolByAncestorOf", "src/ulam/CompilerState.cpp:alreadyDefinedSymbolByAncestorsOf", "src/ulam/CompilerState.cpp:alreadyDefinedSymbolByAClassOrAncestor", "src/ulam/CompilerState.cpp:alreadyDefinedSymbolHere", "src/ulam/CompilerState.cpp:isFuncIdInAClassScopeOrAncestor", "src/ulam/NodeBlockClass.cpp:isIdInScope", "src/ulam/NodeVarDeclDM.cpp:checkForNoShadowingSubclass"]}
{"id": "C97", "title": "A program with directives is read as the text it stands for", "statement": "The parser reads the tokens of the program's files with each `load` replaced by the file it names, `use` and `ulam` directives taken out, and documentation comments set aside for the token after them; a file that is not there, a version newer than the compiler and a directive of another form are reported; unreading a token and reading it again changes nothing.", "quantifier": "for all token texts, all sets of files, all nestings of loads, all numbers", "why_tests_cant": "Directives may stand anywhere, also inside declarations, between comments or at the end of a file; tests use them at the top of a file in the usual order.", "anchors": ["src/ulam/Preparser.cpp:getNextToken", "src/ulam/Preparser.cpp:preparseKeywordUse", "src/ulam/Preparser.cpp:preparseKeywordLoad", "src/ulam/Preparser.cpp:preparseKeywordUlam", "src/ulam/Preparser.cpp:preparsePackageName", "src/ulam/Preparser.cpp:preparseFileName", "src/ulam/Preparser.cpp:peekFirstToken", "src/ulam/Parser.cpp:getNextToken", "src/ulam/Parser.cpp:unreadToken", "src/ulam/SourceStream.cpp:setFileUlamVersion"]}
{"id": "C98", "title": "No reference to a function's own variables gets out of it", "statement": "In the evaluator, a function that returns a reference never returns one to its own local variables or parameters: that is an error of the evaluation. A reference it was given and returns leads, for the caller, to the variable the caller gave.", "quantifier": "for all functions, arguments, stacks and pointers", "why_tests_cant": "tests return one local variable, and one reference given, at one depth of calls; whether a pointer into the stack is still good depends on how the frame was made", "anchors": ["src/ulam/NodeReturnStatement.cpp:315-353", "src/ulam/CompilerState.cpp:6191-6247", "src/ulam/CallStack.cpp:227-237"]}
{"id": "C99", "title": "Class types stand for each other by inheritance only", "statement": "A value or reference of a class type is implicitly accepted where another class type is asked for exactly when that is the same class or an ancestor; a cast expression reaches, besides, a descendant when the operand is a reference. Only elements and atoms become an Atom unasked. No conversion makes something writable of a constant reference, whatever is implicit may be written out, and a conversion that was accepted is carried out by the evaluator and gives the type asked for.", "quantifier": "for all class hierarchies, all pairs of types (class, Atom, primitive, array, reference), all values", "why_tests_cant": "tests convert a handful of pairs in one small hierarchy each; the rule is spread over five classes of types and two checks that have to agree on every pair", "anchors": ["src/ulam/UlamTypeClass.cpp:58-130", "src/ulam/UlamTypeAtom.cpp:71-138", "src/ulam/UlamTypeClassElement.cpp:34-70", "src/ulam/NodeCast.cpp:179-555", "src/ulam/Node.cpp:3020-3169"]}
{"id": "C100", "title": "Iterating over the bases of a class visits each once, and copying shared data moves exactly what is shared", "statement": "A ClassBaseIterator gives every class the runtime lists as a base of the object and that passes the filter, each once and in the listed order, and then reports the end; hasNext may be asked any number of times without effect, and currentIndex names the place in the list. copySharedData gives the target, for every class both atoms have, the data members of the source, leaves every other bit and the target's class alone, and returns the number of bits; a shared class of more than 32 bits is a failure and never a truncated copy.", "quantifier": "for all answers of the runtime about classes (ids, counts, positions, sizes), all filters, all contents of both atoms, all iterator states", "why_tests_cant": "the stdlib tests iterate over one or two small hierarchies; skipping a base, visiting one twice or clobbering a neighbouring field depends on the order and layout of the bases", "anchors": ["share/ulam/stdlib/ClassUtils.ulam:76-138", "share/ulam/stdlib/ClassUtils.ulam:215-259"]}
{"id": "C101", "title": "Functions of a class are told apart by name and parameters, and agree on what they return", "statement": "Within a class and its ancestors, functions of the same name and parameter types are found to differ in return type exactly when they do, whatever the order; functions with different parameters are always accepted together; a class cannot have two functions with the same key, and the key made while parsing tells the parameters apart; two functions of one class with the same name and parameters are an error.", "quantifier": "for all classes, all hierarchies with shared bases, all lists of parameters, all orders of the function table", "why_tests_cant": "tests have two or three overloads each; what is compared depends on the order of a table keyed by numbers of types, and on which of the functions are virtual", "anchors": ["src/ulam/SymbolFunctionName.cpp:overloadFunction", "src/ulam/SymbolFunction.cpp:getMangledNameWithUTIparameters", "src/ulam/SymbolFunctionName.cpp:checkForDuplicateFunctionSignature", "src/ulam/NodeBlockClass.cpp:checkDuplicateFunctionsInClassAndAncestors", "src/ulam/NodeBlockClass.cpp:checkMatchingFunctions", "src/ulam/SymbolFunctionName.cpp:checkFunctionNames"]}
{"id": "C102", "title": "A subscript on an object of a class calls its aref function", "statement": "A class can be subscripted exactly when it or an ancestor has a function aref; an item has the type all functions aref of the nearest such class return; the subscript becomes a call exactly when one function fits the argument, found in the class or, when hidden by none in between, in an ancestor; functions aref that return Void or different types are reported.", "quantifier": "for all class hierarchies, all sets of aref functions, all argument types", "why_tests_cant": "tests subscript classes with one aref, or one base with it; which base is asked first and what is counted twice depends on the whole hierarchy", "anchors": ["src/ulam/NodeSquareBracket.cpp:checkAndLabelType", "src/ulam/SymbolFunctionName.cpp:checkCustomArrayGetFunctions", "src/ulam/SymbolFunctionName.cpp:getCustomArrayReturnType", "src/ulam/NodeBlockClass.cpp:getCustomArrayTypeFromGetFunction", "src/ulam/NodeBlockClass.cpp:getCustomArrayIndexTypeFromGetFunction", "src/ulam/SymbolTableOfFunctions.cpp:checkCustomArrayTypeFuncs", "src/ulam/NodeBlockClass.cpp:hasCustomArrayLengthofFunction"]}
{"id": "C103", "title": "The generated code finds a member of a member where the layout puts it", "statement": "For a data member reached through members of members, from a local variable, a reference, self or super, with or without bases selected by name, the position the generated code computes, from constants and what it asks the class of the object at run time, is the sum of the positions of the classes that declare the members in the classes they are reached in and of the members in those classes; so is the position of the object a function is called on.", "quantifier": "for all hierarchies with shared bases, all chains of members, all classes the object can be of at run time", "why_tests_cant": "tests read chains of two or three members in a few layouts, mostly with the class at position 0; which of several branches computes the position depends on where the first member is declared and on the kind of the variable", "anchors": ["src/ulam/Node.cpp:calcDataMemberPosOfCurrentObjectClasses", "src/ulam/Node.cpp:calcDataMemberPosOfCurrentObjectClassesFromFirstDMIndex", "src/ulam/Node.cpp:askEffectiveSelfAtRuntimeForRelPosOfBase", "src/ulam/Node.cpp:genMemberNameOfMethod", "src/ulam/Node.cpp:genLocalMemberNameOfMethodByUsTypedef", "src/ulam/Node.cpp:genHiddenArg2"]}
{"id": "C104", "title": "The generated code finds the virtual function that is meant", "statement": "The tables written for a class, its functions, where the functions begun by each ancestor start by registration number, and the names of the positions, lead every call of a virtual function to the function of the most specific class of the object that declares it, or to the one that fails if that is pure; a call decided when compiling gets the same.", "quantifier": "for all hierarchies, all declarations of functions, all orders and passes of building the tables, all registration numbers", "why_tests_cant": "tests run a few hierarchies; the entry comes out of three tables written at different places, one of 16 bit numbers", "anchors": ["src/ulam/NodeBlockClass.cpp:genCodeBuiltInVirtualTable", "src/ulam/NodeBlockClass.cpp:genCodeBuiltInVirtualTableStartOffsetHelper", "src/ulam/SymbolClass.cpp:convertVTstartoffsetmap", "src/ulam/NodeFunctionCall.cpp:genCodeVirtualFunctionCallVTableEntry", "src/ulam/NodeFunctionCall.cpp:genCodeVirtualFunctionCallVTableEntryUsingSpecifiedVTable", "src/ulam/NodeFunctionCall.cpp:genCodeVirtualFunctionCallVTableEntryUsingEffectiveSelf"]}
{"id": "C105", "title": "A checksum that was updated is valid", "statement": "In storage for bits, updating the checksum of the first bits says that it did exactly if the bits for it are there, writes the rightmost bits of the checksum right after the bits it is of, and changes nothing else; after that the checksum is valid. A checksum is valid exactly if those bits are the rightmost of the checksum of the bits before.", "quantifier": "for all contents and sizes of the storage, all lengths, all widths of 1 to 32 bits, all functions for the checksum", "why_tests_cant": "tests use a few lengths and one width; the mask comes from a shift by 32 less the width", "anchors": ["share/ulam/stdlib/BitStorage.ulam:updateChecksum", "share/ulam/stdlib/BitStorage.ulam:isChecksumValid"]}
{"id": "C106", "title": "The latch withstands flipped bits", "statement": "A latch made of 2n+1 bits answers all calls like one that is never disturbed, as long as no more than n bits are flipped from one call that writes to the next; n+1 may be too many. Undisturbed, it tells exactly one caller after a reset that it is new.", "quantifier": "for all n, all sequences of calls, all flips of bits between them", "why_tests_cant": "tests do not flip bits", "anchors": ["share/ulam/stdlib/Once.ulam:new", "share/ulam/stdlib/Once.ulam:reset", "share/ulam/stdlib/Once.ulam:initted"]}
{"id": "C107", "title": "The tables for roots and angles are right", "statement": "The square root of a number of six bits is 32 times the root with the fraction cut off. The angle between two sites of the event window is the one of geometry, in degrees with the fraction cut off, the same both ways; clockwise, both ways make a full turn.", "quantifier": "for all numbers, all pairs of sites", "why_tests_cant": "tests look up a few; the tables were generated by a program that is not part of the sources", "anchors": ["share/ulam/stdlib/MDist.ulam:acuteAngle", "share/ulam/stdlib/MDist.ulam:angleCW", "share/ulam/stdlib/MDist.ulam:sqrt32"]}
{"id": "C108", "title": "A class passes with the bases it may have", "statement": "A class whose bases are resolved and have passed passes exactly if each base, shared or not, is a quark, or both are transients. Bases that are not known yet, or are no classes, keep a class from passing, and a class that is refused is reported. Whatever order the classes are labelled in, after as many rounds as there are levels of inheritance exactly the classes have passed that have no forbidden base anywhere above them, and the others are refused; so no element is ever inherited from.", "quantifier": "for all classes, all numbers of bases and shared bases, all hierarchies without cycles, all orders of labelling in each round, all states before", "why_tests_cant": "tests have small hierarchies that are labelled in one order", "anchors": ["src/ulam/NodeBlockClass.cpp:checkMultipleInheritances", "src/ulam/NodeBlockClass.cpp:isBaseClassBlockReady"]}
{"id": "C109", "title": "A variable is accepted with the initial value it may have", "statement": "A declared variable that is accepted has a complete type. Its initial value, if there is one, is accepted and does not use the variable; a list fits the type, anything else is of the same type or was cast because that is safe. An array without a size has as many items as its list. Every declaration is refused and reported, waited for with another round, or accepted; one that is in order is accepted without messages.", "quantifier": "for all types, all initial values, lists of all lengths, all states of what is known", "why_tests_cant": "tests have a few declarations that are wrong in one way each", "anchors": ["src/ulam/NodeVarDecl.cpp:checkAndLabelType", "src/ulam/NodeVarDecl.cpp:safeToCastTo", "src/ulam/NodeVarDecl.cpp:checkSafeToCastTo"]}
{"id": "C110", "title": "A reference is accepted to what may be referred to", "statement": "A reference variable that is accepted has a complete type that is a reference. Unless it is a constant reference it is given something that may be referred to and stored into, which then holds for the variable too; a constant reference may not be stored into. The initial value is cast where its type differs.", "quantifier": "for all reference types, all initial values", "why_tests_cant": "tests have a few references", "anchors": ["src/ulam/NodeVarRef.cpp:checkAndLabelType", "src/ulam/NodeVarRef.cpp:safeToCastTo"]}
{"id": "C111", "title": "A list is accepted if its items are", "statement": "A list of arguments is refused exactly if one of them is, otherwise waited for exactly if one is not complete. A list of initial values for an array is accepted exactly if each has a type other than Void and is constant, and as many errors are reported as items are wrong. A list is constant exactly if all items are, and not known to be if one is not known; it uses a variable exactly if an item does.", "quantifier": "for all lists, all answers of the items", "why_tests_cant": "tests have short lists whose items are all in the same state", "anchors": ["src/ulam/NodeList.cpp:checkAndLabelType", "src/ulam/NodeList.cpp:isAConstant", "src/ulam/NodeListArrayInitialization.cpp:checkAndLabelType"]}
{"id": "C112", "title": "The notes on an ambiguous call list its candidates", "statement": "When a call is ambiguous, the notes are numbered one by one up to the number of matches announced; each names a function of the class or an ancestor to which the call applies, none twice, and with one function of a class all others of that class to which the call applies. The number of candidates found for the notes is the number counted when the call was looked up, so that the compiler does not stop at its own assertion.", "quantifier": "for all hierarchies of classes, all overloads, all arguments", "why_tests_cant": "tests have a few ambiguous calls; whether the two counts agree depends on the shape of the whole hierarchy", "anchors": ["src/ulam/CompilerState.cpp:noteAmbiguousFunctionSignaturesInAClassHierarchy", "src/ulam/SymbolFunctionName.cpp:noteAmbiguousFunctionSignatures"]}
{"id": "C113", "title": "Accepted data members are in order", "statement": "A data member is accepted only if it is accepted as a variable, shadows no member of an ancestor, has no initial value in a union of quarks, has only a constant initial value of an accepted type that may be cast to the member's, and has an allowed size; one that is in order is accepted without a message; one refused is reported; one waited for gets another round; constants are asked for only while the initial value is checked.", "quantifier": "for all data members and all outcomes of the checks they depend on", "why_tests_cant": "tests have some tens of data members with initial values; the outcomes combine in hundreds of ways", "anchors": ["src/ulam/NodeVarDeclDM.cpp:checkAndLabelType", "src/ulam/NodeVarDeclDM.cpp:safeToCastTo"]}
{"id": "C114", "title": "A data member starts with its initial value", "statement": "The value stored for a data member with a constant initial value is that value; where it cannot be had there is an error or another round.", "quantifier": "for all primitive types, all bit sizes, all values of the type", "why_tests_cant": "tests use a few values, and for Unary only 0, 1 and the greatest", "anchors": ["src/ulam/NodeVarDeclDM.cpp:foldArrayInitExpression", "src/ulam/NodeVarDeclDM.cpp:updateConstant", "src/ulam/NodeVarDeclDM.cpp:updateConstant32", "src/ulam/NodeVarDeclDM.cpp:updateConstant64"]}
{"id": "C115", "title": "Sizes of data members", "statement": "The check of the size of a data member reports one error exactly if the member is not allowed: an element or a transient, a single number of more than 64 bits or an array of quarks of more than 71 bits, in an element or quark; a single quark of more than 64 bits anywhere.", "quantifier": "for all classes and all types of members", "why_tests_cant": "sizes at and around the limits, for every combination of kinds of class and member", "anchors": ["src/ulam/NodeVarDeclDM.cpp:checkDataMemberSizeConstraints"]}
{"id": "C116", "title": "Values in the list of members can be read back", "statement": "The text given for the value of a constant or data member in the list of class members determines the value word by word and its own end, whatever text follows; the text of zero is that of a data member without initial value.", "quantifier": "for all values of all sizes, all texts that follow", "why_tests_cant": "tests have a few values; whether two values share a text is a question about all pairs", "anchors": ["src/ulam/SymbolWithValue.cpp:getLexValueAsString", "src/ulam/MapConstantDesc.cpp:getValueAsString", "src/ulam/MapDataMemberDesc.cpp:getValueAsString"]}
{"id": "C117", "title": "Constants in generated arrays", "statement": "The text written between the braces of an array in generated C++ for a default value, a constant of a class, a constant array or a list of initial values has no more items than the array, and the array so initialized holds the words of the value; a list that is loaded as one number is written as that number.", "quantifier": "for all values of all sizes", "why_tests_cant": "tests run a few; zero words, trailing zeros and partial words combine in unboundedly many ways", "anchors": ["src/ulam/SymbolWithValue.cpp:getHexValueAsString", "src/ulam/SymbolWithValue.cpp:printPostfixValueArray", "src/ulam/NodeListArrayInitialization.cpp:genCode", "src/ulam/CompilerState.cpp:genCodeClassDefaultConstantArray"]}
{"id": "C118", "title": "Printed values", "statement": "The text of a value of a type other than String, in the name of an instance shown to a person and in the printed tree, reads as that value.", "quantifier": "for all primitive types, all bit sizes up to 64, all values", "why_tests_cant": "tests print a few values, seldom at the limits", "anchors": ["src/ulam/SymbolWithValue.cpp:convertValueToAPrettyString", "src/ulam/SymbolWithValue.cpp:printPostfixValueScalar", "src/ulam/File.cpp:write_decimal_unsigned", "src/ulam/File.cpp:write_hexadecimallong"]}
{"id": "C119", "title": "Selections of members", "statement": "A selection gets a type only if its left side is a single complete class that is ready; the type is that of the right side with names looked up in that class first; a member is selected by class id only if it is a virtual function; a function is called only on a left side that can be stored into, or there is an error or another round; the place where names are looked up and the demand for constants are afterwards as before; one refused is reported, one waited for gets another round.", "quantifier": "for all selections and all outcomes of labelling their sides", "why_tests_cant": "tests have a fixed set of programs; whether state is restored on each path is a question about all paths", "anchors": ["src/ulam/NodeMemberSelect.cpp:checkAndLabelType", "src/ulam/NodeMemberSelect.cpp:checkStoreIntoAble", "src/ulam/NodeMemberSelect.cpp:checkVarUsedBeforeDeclared"]}
{"id": "C120", "title": "Members of constants", "statement": "The value of a data member of a constant class, selected through any number of members, is the bits the member takes up in the constant, and the position given for it is where these start.", "quantifier": "for all constants, all chains of selections, inherited members included", "why_tests_cant": "tests select a few members, none inherited", "anchors": ["src/ulam/NodeMemberSelect.cpp:getConstantMemberValue", "src/ulam/NodeMemberSelect.cpp:getPositionOf", "src/ulam/NodeIdent.cpp:getPositionOf"]}
{"id": "C121", "title": "Constants read in the generated code", "statement": "The C++ code that reads a constant class, a member of it, or an item of an array that is such, reads the bits these take up in the constant.", "quantifier": "for all constants, all chains of selections, all indices", "why_tests_cant": "tests select one member from a constant, and none inherited", "anchors": ["src/ulam/Node.cpp:genCodeReadFromAConstantClassIntoATmpVar", "src/ulam/Node.cpp:genCodeReadArrayItemFromAConstantClassIntoATmpVar", "src/ulam/NodeConstantClass.cpp:genCodeToStoreInto"]}
{"id": "C122", "title": "Names of constants in the generated code", "statement": "The C++ name written for a constant denotes, where it is written, the C++ declaration made for that constant: static member of the class or file that declares it or of the instance it is an argument of, or variable of the function; there is an abort only for arguments whose instance is not exactly one ancestor.", "quantifier": "for all constants, all classes compiled and all variables in scope", "why_tests_cant": "whether a name is hidden depends on other declarations of the program; tests have few", "anchors": ["src/ulam/Node.cpp:genConstantClassMangledName", "src/ulam/Node.cpp:genConstantArrayMangledName", "src/ulam/CompilerState.cpp:findClassAncestorWithMatchingNameid", "src/ulam/NodeConstantDef.cpp:genCode"]}
{"id": "C123", "title": "Reading an object as one of its base classes", "statement": "The method that the generated code has for reading through a reference to a quark or transient gives every bit of the class from where the layout of the real object has it, whether that object is of the class itself or of one derived from it; reading a base of the result is the same as reading that base of the object.", "quantifier": "for all classes with any number of shared bases, all real objects and layouts of these, all contents", "why_tests_cant": "depends on the order and gaps of bases in derived classes; tests have a handful", "anchors": ["src/ulam/UlamTypeClassQuark.cpp:genUlamTypeAutoReadDefinitionForC", "src/ulam/UlamTypeClassTransient.cpp:genUlamTypeMangledAutoDefinitionForC"]}
{"id": "C124", "title": "Writing an object as one of its base classes", "statement": "The method that the generated code has for writing through a reference to a quark or transient puts every bit of the value where the layout of the real object has it, leaves all other bits of the storage alone, and what was written is read back.", "quantifier": "for all classes with any number of shared bases, all real objects and layouts of these, all contents and values", "why_tests_cant": "depends on the order and gaps of bases in derived classes and on neighbouring bits, which tests do not look at", "anchors": ["src/ulam/UlamTypeClassQuark.cpp:genUlamTypeAutoWriteDefinitionForC", "src/ulam/UlamTypeClassTransient.cpp:genUlamTypeAutoWriteDefinitionForC"]}
{"id": "C125", "title": "Values of generated storage: read and write", "statement": "For every primitive type, String and quark, scalar or array, the C++ type of a value, the method chosen and the size fit: reading the generated storage gives the number all its bits make, writing a number and reading gives the number as far as the bits go.", "quantifier": "for all kinds, bit sizes, array sizes, contents and numbers", "why_tests_cant": "boundaries at 32, 64 and 96 bits for each kind; tests have few sizes", "anchors": ["src/ulam/UlamType.cpp:getTmpStorageTypeAsString", "src/ulam/UlamType.cpp:readMethodForCodeGen", "src/ulam/UlamTypePrimitive.cpp:genUlamTypeReadDefinitionForC", "src/ulam/UlamTypeClassQuark.cpp:genUlamTypeWriteDefinitionForC"]}
{"id": "C126", "title": "Items of generated arrays", "statement": "In the generated storage of arrays reading an item gives the number in its bits, writing an item changes that item and nothing else, and the whole value is the items one after another, the first the highest.", "quantifier": "for all kinds, bit sizes, array sizes, indices, contents and numbers", "why_tests_cant": "neighbouring items are seldom looked at", "anchors": ["src/ulam/UlamType.cpp:readArrayItemMethodForCodeGen", "src/ulam/UlamTypePrimitive.cpp:genUlamTypeReadDefinitionForC", "src/ulam/UlamTypePrimitiveString.cpp:genUlamTypeWriteDefinitionForC", "src/ulam/UlamTypeClassQuark.cpp:genUlamTypeReadDefinitionForC"]}
{"id": "C127", "title": "Constructors of generated arrays", "statement": "The generated constructor of a String array from a 64-bit number holds that number; the generated default constructor of a quark array has the default of the quark in each item.", "quantifier": "for all array sizes, numbers, sizes of quarks and defaults", "why_tests_cant": "the order of items in the loop shows only with different items", "anchors": ["src/ulam/UlamTypePrimitiveString.cpp:genUlamTypeMangledDefinitionForC", "src/ulam/UlamTypeClassQuark.cpp:genUlamTypeMangledDefinitionForC"]}
{"id": "C128", "title": "Constructors call methods that exist", "statement": "The copy constructor and the constructor from a reference, generated for primitive types, Strings and quarks, call a form of read that the struct they read from declares, and that gives the value.", "quantifier": "for all kinds, bit sizes and array sizes", "why_tests_cant": "templates that are not used are not compiled, so tests see only the sizes they use", "anchors": ["src/ulam/UlamTypePrimitive.cpp:genUlamTypeMangledDefinitionForC", "src/ulam/UlamTypePrimitive.cpp:genUlamTypeAutoReadDefinitionForC", "src/ulam/UlamTypeClassQuark.cpp:genUlamTypeAutoReadDefinitionForC"]}
{"id": "C129", "title": "The variable of a condition with as", "statement": "In the generated code the variable that a condition x as V introduces refers to the bits of V in the object that x is: right position, right class of the object, right distance to its start, right number of bits; so what is read through it are the bits where the layout of the object has V and the bases of V.", "quantifier": "for all classes and layouts, all operands (self, references, variables, data members, atoms), all classes V", "why_tests_cant": "depends on positions of bases in derived classes and on the kind of operand; tests combine few of them", "anchors": ["src/ulam/NodeVarRefAs.cpp:genCode", "src/ulam/NodeVarRefAs.cpp:genCodeRefAsSelf", "src/ulam/UlamTypeClassQuark.cpp:genUlamTypeMangledAutoDefinitionForC", "src/ulam/UlamTypeClassTransient.cpp:genUlamTypeMangledAutoDefinitionForC"]}
{"id": "C130", "title": "Assignment to self in the generated code", "statement": "In a function of a class, self = v replaces the bits of that class and of its bases in the object that self is, wherever the layout of the class of the object has them, and no other bit; a reference to the class then reads v.", "quantifier": "for all classes with any bases, all classes of the object and their layouts, all values, all states of the storage", "why_tests_cant": "tests assign to self in few hierarchies and look at few members", "anchors": ["src/ulam/Node.cpp:genCodeWriteToRefselfFromATmpVar", "src/ulam/Node.cpp:genCodeWriteToSelfFromATmpVar"]}
{"id": "C131", "title": "Self as a value in the generated code", "statement": "In a function of a class, the value of self is the value of that class in the object that self is: the same that a reference to the class reads; so self = self changes nothing.", "quantifier": "for all classes with any bases, all classes of the object and their layouts, all states of the storage", "why_tests_cant": "tests use self as a value mostly in functions called for objects of the class itself", "anchors": ["src/ulam/Node.cpp:genCodeReadSelfIntoATmpVar", "src/ulam/Node.cpp:genCodeReadTransientIntoATmpVar", "src/ulam/Node.cpp:genHiddenArg2"]}
{"id": "C132", "title": "What generated classes tell of their data members", "statement": "For the numbers below the count that a generated class reports, and for no others, it describes a data member; each data member an object of the class has, its own and those of every ancestor, is described for exactly one number, with the position that it has in the layout of the object. Without unions, the described ranges are disjoint and fill the object.", "quantifier": "for all classes and hierarchies, all layouts that fit in 32 bits", "why_tests_cant": "tests print the members of few classes, mostly without diamonds among the bases", "anchors": ["src/ulam/NodeBlockClass.cpp:generateUlamClassInfo", "src/ulam/NodeBlockClass.cpp:generateUlamClassInfoCount", "src/ulam/NodeVarDeclDM.cpp:generateUlamClassInfo"]}
{"id": "C133", "title": "Base classes in and out of objects, in the evaluator", "statement": "When the evaluator casts an object to a base class, the value has every data member of the base and of its ancestors as the object has it, and no other bit set; casting in two steps gives the same members as in one. When it assigns to a base class of an object, these members become those of the value and no other bit of the object changes; a cast afterwards gives the value back.", "quantifier": "for all hierarchies and layouts within 71 bits, all values", "why_tests_cant": "tests look at few members of few hierarchies, and rarely at the bits that must not change", "anchors": ["src/ulam/CompilerState.cpp:extractQuarkBaseFromSubclassForEval", "src/ulam/CompilerState.cpp:extractTransientBaseFromSubclassForEval", "src/ulam/NodeBinaryOpEqual.cpp:doBinaryOperation"]}
{"id": "C134", "title": "Local variables start as the defaults of their types (evaluator)", "statement": "When the compiler evaluates the declaration of a local variable without an initial value, every item of the variable, at the place where the evaluator looks for it, is zero for a primitive type and the default of the class for a class type. This holds for scalars and arrays, whether the items share one stack slot or have one each. It does not hold for arrays of quarks or transients of 65 to 71 bits altogether, where all items but the first are zeros.", "quantifier": "all types of local variables, all defaults of classes, all items", "why_tests_cant": "The tests declare a few variables; the sizes 65 to 71 bits, where the items share a slot but are not treated as one number, occur in none of them with a default that is not zero.", "anchors": ["src/ulam/NodeVarDecl.cpp:eval", "src/ulam/NodeVarDecl.cpp:setupStackWithPrimitiveForEval", "src/ulam/NodeVarDecl.cpp:setupStackWithClassForEval", "src/ulam/CompilerState.cpp:getDefaultAsPackedArray", "src/ulam/UlamValue.cpp:makeDefaultAtom"]}
{"id": "C135", "title": "Local variables hold their constant initial values (evaluator)", "statement": "When the compiler evaluates the declaration of a local variable with a constant initial value, item i of the variable is the i-th item of the initial value. It does not hold for arrays of primitives of 65 to 71 bits altogether, for transients of 65 to 71 bits, and for arrays of elements; an initialised array of quarks or transients of at most 64 bits altogether stops the compiler.", "quantifier": "all types of local variables, all initial values, all items", "why_tests_cant": "The tests initialise arrays of a few sizes; the places where the items end up depend on the size, the kind of class and the number of items.", "anchors": ["src/ulam/NodeVarDecl.cpp:setupStackWithPrimitiveForEval", "src/ulam/NodeVarDecl.cpp:setupStackWithClassForEval", "src/ulam/SymbolWithValue.cpp:getArrayItemInitValue", "src/ulam/UlamValue.cpp:makeImmediateLong"]}
{"id": "C136", "title": "Named constants on the evaluator's stack have their values", "statement": "When the compiler puts a named constant (a primitive, a quark, an element, a small transient, or an array of them) on its stack of constants, item i of the constant, at the place where the evaluator looks for it, is the i-th item of the folded value; a short list of initialisers is continued with its last one; and the next constant begins right after the slots of this one. It does not hold for arrays of primitives, quarks or transients of 65 to 71 bits altogether, nor for arrays of quarks of more than 32 bits with an empty list of initialisers, whose defaults are cut to 32 bits.", "quantifier": "all types of constants, all folded values, all lists of initialisers, all items", "why_tests_cant": "The tests define constants of a few sizes; what goes wrong depends on the number of bits of an item and of all items, and the wrong sizes are in none of the tests.", "anchors": ["src/ulam/NodeConstantDef.cpp:assignConstantSlotIndex", "src/ulam/NodeConstantDef.cpp:setupStackWithPrimitiveForEval", "src/ulam/NodeConstantDef.cpp:setupStackWithConstantClassForEval", "src/ulam/SymbolClass.cpp:getDefaultQuark"]}
{"id": "C137", "title": "A reference is to what it is initialised with", "statement": "For T& r = a.b.c, and for a reference passed to or returned by a function, the generated program makes a reference that is at the place of the member named, whatever bases declare the members, whatever object the first reference is to a part of, and whether a base is named or not; a reference to a member of a class has that class for its effective self, and a reference made from a whole reference keeps its object.", "quantifier": "for all class layouts, all chains of members and all objects a reference may be to a part of", "why_tests_cant": "The position is put together in different ways for variables and references, for classes and numbers, for inherited members and own ones, and for named bases; the tests have a few of the combinations (t41599, t41642, t41333), each added for one mistake that had been found.", "anchors": ["src/ulam/Node.cpp:genCodeReferenceInitialization", "src/ulam/NodeVarRef.cpp:genCode", "src/ulam/NodeMemberSelectByBaseClassType.cpp:makeUVPassForCodeGen"]}
{"id": "C138", "title": "Casting to a base class leads to that part of the object", "statement": "For a cast of a.b.c to a base of its class, to a derived class, or to a reference to its own class, the generated program makes a reference that is at the place of that part of the object named, for every object a reference may be to a part of; if the object has no such part the program stops.", "quantifier": "for all class layouts, all chains of members and all objects a reference may be to a part of", "why_tests_cant": "The position is put together from four parts (the reference, the member, the class that declares the first member, the base), each left out or included by its own condition, most of them added for one test (t41366, t41627, t41628, t41634); the tests have a few of the combinations.", "anchors": ["src/ulam/NodeCast.cpp:genCodeCastDescendant", "src/ulam/NodeCast.cpp:genPositionOfBaseIntoATmpVar"]}
{"id": "C139", "title": "Initialization lists are read as they are written", "statement": "A list in curly brackets with commas between the values and perhaps one behind the last, for an array (expressions, or lists for a class, empty ones too) or for a class (.name = expression or list), nested in any way, is read as that list and the tokens behind it are left alone; other tokens are reported as an error; the parser stops whatever the tokens.", "quantifier": "for all lists of any length and depth and all tokens behind them, and for all sequences of tokens", "why_tests_cant": "The functions call each other for nested lists and tell a bracket, a comma, and an item that is missing apart by what was eaten before; the tests (such as t41168, t41170, t41206, t41658, t41659) have a few lists of each kind.", "anchors": ["src/ulam/Parser.cpp:parseArrayOrClassInitialization", "src/ulam/Parser.cpp:parseArrayItemInit", "src/ulam/Parser.cpp:parseClassItemInit"]}
{"id": "C140", "title": "Parameters and arguments of functions are read as they are written", "statement": "The parameters of a function definition, with commas between them and perhaps an ellipsis last, are read as these types and names in this order up to the closing parenthesis; a name twice, something behind the ellipsis, an ellipsis in a function that is not native, a constructor without parameters, and an operator with more than one are reported as errors. The arguments of a call, with commas between them, are read as these in this order. What is not written so is reported; but commas between parameters may be left out, there may be one behind the last, and places without an argument between the commas of a call are not noticed.", "quantifier": "for all lists of any length, all kinds of functions, all tokens behind them, and all sequences of tokens", "why_tests_cant": "The tests (such as t3250, t3983, t3990) have well-formed lists and a few mistakes; none leaves out a comma between parameters or an argument between commas.", "anchors": ["src/ulam/Parser.cpp:parseRestOfFunctionParameters", "src/ulam/Parser.cpp:parseFunctionParameterDecl", "src/ulam/Parser.cpp:makeFunctionBlock", "src/ulam/Parser.cpp:parseRestOfFunctionCallArguments"]}
{"id": "C141", "title": "A local reference is to what it was initialised with, in each activation (evaluator)", "statement": "When the compiler evaluates a function, every use of a local reference, of a parameter that is a reference, or of a variable leads to the variable it is for: a local reference to what it was initialised with in the same activation of the function, whatever has been called since and however references are passed on. It does not hold for functions that call themselves: afterwards a reference that was initialised with a parameter or a data member is to what the inner activation initialised it with; only if it is always initialised with the same variable of the function it is still to that.", "quantifier": "for all executions: all nestings of calls, all declarations of references, all stacks", "why_tests_cant": "The tests have references and they have recursion (t3118, t41060), but not both in one function; what goes wrong depends on the order of declaration, call and use.", "anchors": ["src/ulam/NodeVarRef.cpp:eval", "src/ulam/NodeIdent.cpp:evalToStoreInto", "src/ulam/NodeIdent.cpp:makeUlamValuePtr", "src/ulam/SymbolVariableStack.cpp:setAutoPtrForEval", "src/ulam/NodeFunctionCall.cpp:evalArgumentsInReverseOrder"]}
{"id": "C142", "title": "Assigning by a reference is assigning to the variable (evaluator's stack)", "statement": "When the compiler evaluates an assignment, it has the same effect whether the target is given as a variable of the current function or by a reference passed to it: the value is stored in the bits of the target, nothing else of that slot and no other slot is changed. It holds for whole slots and for parts of at most 64 bits. It does not hold for packed arrays of 65 to 71 bits, for which an assignment by reference ends the compiler, nor for slots with pointers in them; and after a class is put into a slot of primitive type the value there has different types.", "quantifier": "for all stacks, frames, slots, pointers, and values", "why_tests_cant": "There are two copies of the code, one for slots and one for absolute indices, and the tests pass mostly small values by reference; an array of 65 to 71 bits is in t3772, as a data member that is not passed.", "anchors": ["src/ulam/CallStack.cpp:assignUlamValue", "src/ulam/CallStack.cpp:assignUlamValueAtAbsoluteIndex", "src/ulam/UlamValue.cpp:putDataIntoAtom", "src/ulam/CompilerState.cpp:getPtrTarget"]}
{"id": "C143", "title": "Calls and statements leave the evaluator's stack as it was", "statement": "When the compiler evaluates an expression, its value is what the expression is worth, whatever functions it calls and however deep calls are nested, and the stack of intermediate results is afterwards as before but for this value; so are the statements of a function: declarations with initial values, expressions, and the return. For arrays initialised with a list whose value is not known before this does not hold: the code for it leaves a frame behind, so that an addition with such a call on its right fails an assertion; it seems that this code is not reached.", "quantifier": "for all expressions, all nestings of calls, all stacks", "why_tests_cant": "A frame left behind shows only in some expressions: as a left operand the call has the right value.", "anchors": ["src/ulam/NodeFunctionCall.cpp:eval", "src/ulam/NodeBlockFunctionDefinition.cpp:eval", "src/ulam/NodeStatements.cpp:eval", "src/ulam/NodeReturnStatement.cpp:eval", "src/ulam/NodeVarDecl.cpp:evalInitExpr", "src/ulam/NodeSimpleStatement.cpp:eval"]}
{"id": "C144", "title": "Conditions and loops leave the evaluator's stack as it was", "statement": "When the compiler evaluates the statements of a function, conditions, while loops, break, continue and return do to the variables what they are to do, in whatever way they are nested, and the function is left in the way it is to be left; conversely, if the statements come to an end then so does the evaluation, with no assertion failed. Either way the stack of intermediate results is afterwards exactly as before, however many times loops were run and however they were left.", "quantifier": "for all statements, all variables and expressions, all stacks, all numbers of iterations", "why_tests_cant": "Room not given back in an iteration, or on one of the ways out of a loop, shows only later and in other statements.", "anchors": ["src/ulam/NodeControlIf.cpp:eval", "src/ulam/NodeControlWhile.cpp:eval", "src/ulam/NodeContinueStatement.cpp:eval", "src/ulam/NodeBreakStatement.cpp:eval", "src/ulam/NodeReturnStatement.cpp:eval", "src/ulam/NodeStatements.cpp:eval"]}
{"id": "C145", "title": "Arrays with a slot for each item: subscripts and copies in the evaluator", "statement": "When the compiler evaluates with an array that is not packed, whether on the call stack or among intermediate results: a subscript within the array reads the item, and a store through it changes this item and nothing else; a copy makes the items those of the other array, changes nothing else, and fails no assertion. A subscript at or beyond the end is an error for reading. A store outside of the array should be refused, and so should a negative subscript; they are not: as long as the place is on the stack at all, the variable that is there is overwritten, or read, and it may be the frame pointer.", "quantifier": "for all arrays, all sizes, all subscripts, all contents of the stacks", "why_tests_cant": "A store outside the array shows only in another variable, and which one depends on the order of declarations and calls.", "anchors": ["src/ulam/UlamValue.cpp:incrementPtr", "src/ulam/UlamValue.cpp:getValAt", "src/ulam/NodeSquareBracket.cpp:eval", "src/ulam/NodeSquareBracket.cpp:evalToStoreInto", "src/ulam/CompilerState.cpp:assignArrayValues", "src/ulam/CallStack.cpp:assignUlamValue"]}
{"id": "C146", "title": "Tables of symbols keep each symbol under its own name", "statement": "In a table of symbols each symbol is under its own name, and no assertion about this fails: adding, taking out, renaming and replacing a symbol have the effect on what is found by name that they should have and no other; merging a table into another keeps what was there and gives the names that were not symbols of their own. Copying does the same if there are no names in common, and fails an assertion if there are. When a template is seen after an instance of it, the arguments of the instance go from their temporary names to the parameters, each to its own and none is lost; given that no parameter has a temporary name, which no identifier can be.", "quantifier": "for all tables, all names, all numbers of arguments", "why_tests_cant": "Renaming entries one by one loses some only when old and new names overlap in a certain order.", "anchors": ["src/ulam/SymbolTable.cpp:addToTable", "src/ulam/SymbolTable.cpp:isInTable", "src/ulam/SymbolTable.cpp:replaceInTable", "src/ulam/SymbolTable.cpp:removeFromTable", "src/ulam/SymbolTable.cpp:mergeATableHere", "src/ulam/SymbolTable.cpp:copyATableHere", "src/ulam/SymbolClassNameTemplate.cpp:fixAnyUnseenClassInstances"]}
{"id": "C147", "title": "An instance of a template has one copy of each type that depends on it", "statement": "While an instance of a class template is made, a type that has to be copied for it gets one copy, whenever and however often it is asked for; different types get different copies, types already mapped have what they were mapped to, and no assertion fails. Mapping a type never changes what another one is mapped to. The map copied from one class to another is the same for types that are no classes, and leaves the rest alone, if none of them was mapped. Mapping a type that is already mapped is reported as done, but what is mapped then is the type it was mapped to.", "quantifier": "for all maps, all sequences of requests", "why_tests_cant": "Whether the same copy is used depends on the order in which members of a template are instantiated, and shows only in types compared much later.", "anchors": ["src/ulam/Resolver.cpp:mapUTItoUTI", "src/ulam/Resolver.cpp:findMappedUTI", "src/ulam/Resolver.cpp:cloneUTImapForNonclasses", "src/ulam/CompilerState.cpp:mapIncompleteUTIForAClassInstance"]}
{"id": "C148", "title": "Whether a class or one of its ancestors is a stub is found", "statement": "Asked whether a class is unfinished because it or a class it inherits from, over any number of levels and ways, is still a template instance with unknown arguments, the compiler answers no exactly when none of them is. The answer is yes exactly when one is, except that an assertion fails for a template that inherits from an instance not marked as one for templates. The set of registration numbers built for a class has the numbers of the class and its ancestors, keeps those it had, and has no other; so a number other than its own is in it exactly when the class is a subclass of the class with that number. Asked what a type is mapped to in a class, the compiler finds something exactly when the class or an ancestor maps it, what the class itself maps it to first.", "quantifier": "for all hierarchies, with aliases, shared bases and undefined classes; all flags of classes; all registration numbers", "why_tests_cant": "A stub high in a hierarchy with several ways to it is met in few tests, and a class missed there is evaluated with constants that are not known yet.", "anchors": ["src/ulam/CompilerState.cpp:hasClassAStubInHierarchy", "src/ulam/SymbolClass.cpp:buildIsBitVectorByRegNum", "src/ulam/SymbolClass.cpp:hasMappedUTI"]}
{"id": "C149", "title": "Packing a class packs all its ancestors, and says so", "statement": "Asked to lay out a complete class together with the classes it inherits from, the compiler lays out each of them once and nothing else, if each can be laid out, and answers yes. If one cannot be, those before it are laid out, the first that cannot be ends the attempt, and the answer is the one for that class. Nothing is laid out for a class that is not complete.", "quantifier": "for all hierarchies, with aliases, shared bases and undefined classes; all answers for single classes", "why_tests_cant": "The answer decides whether a constant is folded or a position known in this pass or a later one; a wrong answer is hidden by a later pass.", "anchors": ["src/ulam/CompilerState.cpp:tryToPackAClass", "src/ulam/CompilerState.cpp:tryToPackAClassHierarchy"]}
