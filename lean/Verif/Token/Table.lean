/-
The token table, /repo/include/Token.inc, one entry for each line in the same
order (so an entry's position is its `TokenType`), expanded by
/repo/src/ulam/Token.cpp:6-52 into the arrays of spellings, special kinds and
operator overload flags.  Spellings are lists of bytes.
-/
namespace Ulam.Token

abbrev Bytes := List Nat

/-- `SpecialTokenWork`; /repo/include/Token.h (`TOKSP_...`). -/
inductive Special where
  | single
  | unclear
  | dquote
  | squote
  | comment
  | hasdata
  | keyword
  | ctlkeyword
  | typekeyword
  | flagkeyword
  | error
  | deprecated
  | operatorkeyword
deriving DecidableEq

/-- One line of Token.inc: name, spelling, special kind, whether the operator may be overloaded. -/
structure Entry where
  name : String
  spelling : Bytes
  special : Special
  overloadable : Bool

/-- Token.inc. -/
def table : List Entry := [
  ⟨"OPEN_CURLY", [123], .single, false⟩,
  ⟨"CLOSE_CURLY", [125], .single, false⟩,
  ⟨"OPEN_PAREN", [40], .single, false⟩,
  ⟨"CLOSE_PAREN", [41], .single, false⟩,
  ⟨"OPEN_SQUARE", [91], .unclear, false⟩,
  ⟨"CLOSE_SQUARE", [93], .single, false⟩,
  ⟨"SQUARE", [91, 93], .unclear, true⟩,
  ⟨"SEMICOLON", [59], .single, false⟩,
  ⟨"COLON", [58], .single, false⟩,
  ⟨"COMMA", [44], .single, false⟩,
  ⟨"QUESTION", [63], .single, false⟩,
  ⟨"BACKTIC", [96], .single, false⟩,
  ⟨"DOT", [46], .unclear, false⟩,
  ⟨"ELLIPSIS", [46, 46], .unclear, false⟩,
  ⟨"DOUBLE_QUOTE", [34], .dquote, false⟩,
  ⟨"SINGLE_QUOTE", [39], .squote, false⟩,
  ⟨"AMP", [38], .unclear, true⟩,
  ⟨"AMP_EQUAL", [38, 61], .unclear, true⟩,
  ⟨"AMP_AMP", [38, 38], .unclear, false⟩,
  ⟨"PIPE", [124], .unclear, true⟩,
  ⟨"PIPE_EQUAL", [124, 61], .unclear, true⟩,
  ⟨"PIPE_PIPE", [124, 124], .unclear, false⟩,
  ⟨"BANG", [33], .unclear, true⟩,
  ⟨"TWIDDLE", [126], .single, true⟩,
  ⟨"EQUAL", [61], .unclear, true⟩,
  ⟨"EQUAL_EQUAL", [61, 61], .unclear, true⟩,
  ⟨"NOT_EQUAL", [33, 61], .unclear, true⟩,
  ⟨"LESS_THAN", [60], .unclear, true⟩,
  ⟨"LESS_EQUAL", [60, 61], .unclear, true⟩,
  ⟨"GREATER_THAN", [62], .unclear, true⟩,
  ⟨"GREATER_EQUAL", [62, 61], .unclear, true⟩,
  ⟨"SHIFT_LEFT", [60, 60], .unclear, true⟩,
  ⟨"SHIFT_LEFT_EQUAL", [60, 60, 61], .unclear, true⟩,
  ⟨"SHIFT_RIGHT", [62, 62], .unclear, true⟩,
  ⟨"SHIFT_RIGHT_EQUAL", [62, 62, 61], .unclear, true⟩,
  ⟨"PLUS", [43], .unclear, true⟩,
  ⟨"PLUS_PLUS", [43, 43], .unclear, true⟩,
  ⟨"PLUS_EQUAL", [43, 61], .unclear, true⟩,
  ⟨"MINUS", [45], .unclear, true⟩,
  ⟨"MINUS_MINUS", [45, 45], .unclear, true⟩,
  ⟨"MINUS_EQUAL", [45, 61], .unclear, true⟩,
  ⟨"STAR", [42], .unclear, true⟩,
  ⟨"STAR_EQUAL", [42, 61], .unclear, true⟩,
  ⟨"STAR_STAR", [42, 42], .unclear, false⟩,
  ⟨"SLASH", [47], .unclear, true⟩,
  ⟨"SLASH_EQUAL", [47, 61], .unclear, true⟩,
  ⟨"SLASH_SLASH", [47, 47], .comment, false⟩,
  ⟨"SLASH_STAR", [47, 42], .comment, false⟩,
  ⟨"STAR_SLASH", [42, 47], .comment, false⟩,
  ⟨"STRUCTURED_COMMENT", [83, 116, 114, 117, 99, 116, 117, 114, 101, 100, 67, 111, 109, 109, 101, 110, 116], .comment, false⟩,
  ⟨"HAT", [94], .unclear, true⟩,
  ⟨"HAT_EQUAL", [94, 61], .unclear, true⟩,
  ⟨"PERCENTSIGN", [37], .unclear, true⟩,
  ⟨"PERCENTSIGN_EQUAL", [37, 61], .unclear, true⟩,
  ⟨"BACKSLASH", [92], .unclear, false⟩,
  ⟨"NUMBER_SIGNED", [95, 83, 73, 71, 78, 69, 68], .hasdata, false⟩,
  ⟨"NUMBER_UNSIGNED", [95, 85, 78, 83, 73, 71, 78, 69, 68], .hasdata, false⟩,
  ⟨"NUMBER_FLOAT", [95, 70, 76, 79, 65, 84], .hasdata, false⟩,
  ⟨"IDENTIFIER", [95, 73, 68, 69, 78, 84, 73, 70, 73, 69, 82], .hasdata, false⟩,
  ⟨"TYPE_IDENTIFIER", [95, 84, 89, 80, 69], .hasdata, false⟩,
  ⟨"DQUOTED_STRING", [95, 68, 79, 85, 66, 76, 69, 81, 85, 79, 84, 69], .hasdata, false⟩,
  ⟨"SQUOTED_STRING", [95, 83, 73, 78, 71, 76, 69, 81, 85, 79, 84, 69], .hasdata, false⟩,
  ⟨"EOF", [255], .single, false⟩,
  ⟨"KW_RETURN", [114, 101, 116, 117, 114, 110], .keyword, false⟩,
  ⟨"KW_GOTO", [103, 111, 116, 111], .keyword, false⟩,
  ⟨"KW_USE", [117, 115, 101], .keyword, false⟩,
  ⟨"KW_LOAD", [108, 111, 97, 100], .keyword, false⟩,
  ⟨"KW_ULAM", [117, 108, 97, 109], .keyword, false⟩,
  ⟨"KW_IF", [105, 102], .ctlkeyword, false⟩,
  ⟨"KW_ELSE", [101, 108, 115, 101], .ctlkeyword, false⟩,
  ⟨"KW_WHILE", [119, 104, 105, 108, 101], .ctlkeyword, false⟩,
  ⟨"KW_FOR", [102, 111, 114], .ctlkeyword, false⟩,
  ⟨"KW_SWITCH", [119, 104, 105, 99, 104], .ctlkeyword, false⟩,
  ⟨"KW_CASE", [99, 97, 115, 101], .keyword, false⟩,
  ⟨"KW_DEFAULT", [111, 116, 104, 101, 114, 119, 105, 115, 101], .keyword, false⟩,
  ⟨"KW_BREAK", [98, 114, 101, 97, 107], .keyword, false⟩,
  ⟨"KW_CONTINUE", [99, 111, 110, 116, 105, 110, 117, 101], .keyword, false⟩,
  ⟨"KW_TYPE_VOID", [86, 111, 105, 100], .typekeyword, false⟩,
  ⟨"KW_TYPE_INT", [73, 110, 116], .typekeyword, false⟩,
  ⟨"KW_TYPE_UNSIGNED", [85, 110, 115, 105, 103, 110, 101, 100], .typekeyword, false⟩,
  ⟨"KW_TYPE_BOOL", [66, 111, 111, 108], .typekeyword, false⟩,
  ⟨"KW_TYPE_UNARY", [85, 110, 97, 114, 121], .typekeyword, false⟩,
  ⟨"KW_TYPE_BITS", [66, 105, 116, 115], .typekeyword, false⟩,
  ⟨"KW_TYPE_ATOM", [65, 116, 111, 109], .typekeyword, false⟩,
  ⟨"KW_TYPE_HOLDER", [48, 72, 111, 108, 100, 101, 114], .typekeyword, false⟩,
  ⟨"KW_LOCALDEF", [108, 111, 99, 97, 108], .keyword, false⟩,
  ⟨"KW_TYPE_STRING", [83, 116, 114, 105, 110, 103], .typekeyword, false⟩,
  ⟨"KW_TYPEDEF", [116, 121, 112, 101, 100, 101, 102], .keyword, false⟩,
  ⟨"KW_CONSTDEF", [99, 111, 110, 115, 116, 97, 110, 116], .keyword, false⟩,
  ⟨"KW_PARAMETER", [112, 97, 114, 97, 109, 101, 116, 101, 114], .keyword, false⟩,
  ⟨"KW_VIRTUAL", [118, 105, 114, 116, 117, 97, 108], .keyword, false⟩,
  ⟨"KW_FLAG_VIRTUALOVERRIDE", [64, 79, 118, 101, 114, 114, 105, 100, 101], .flagkeyword, false⟩,
  ⟨"KW_FLAG_CONCRETECLASS", [64, 67, 111, 110, 99, 114, 101, 116, 101], .flagkeyword, false⟩,
  ⟨"KW_TRUE", [116, 114, 117, 101], .keyword, false⟩,
  ⟨"KW_FALSE", [102, 97, 108, 115, 101], .keyword, false⟩,
  ⟨"KW_ELEMENT", [101, 108, 101, 109, 101, 110, 116], .keyword, false⟩,
  ⟨"KW_QUARK", [113, 117, 97, 114, 107], .keyword, false⟩,
  ⟨"KW_QUARKUNION", [117, 110, 105, 111, 110], .keyword, false⟩,
  ⟨"KW_TRANSIENT", [116, 114, 97, 110, 115, 105, 101, 110, 116], .keyword, false⟩,
  ⟨"KW_NATIVE", [110, 97, 116, 105, 118, 101], .keyword, false⟩,
  ⟨"ERROR_LOWLEVEL", [95, 76, 79, 87, 76, 69, 86, 69, 76, 69, 82, 82, 79, 82], .error, false⟩,
  ⟨"KW_IS", [105, 115], .keyword, false⟩,
  ⟨"KW_HAS", [104, 97, 115], .deprecated, false⟩,
  ⟨"KW_AS", [97, 115], .keyword, false⟩,
  ⟨"KW_SIZEOF", [115, 105, 122, 101, 111, 102], .keyword, false⟩,
  ⟨"KW_MAXOF", [109, 97, 120, 111, 102], .keyword, false⟩,
  ⟨"KW_MINOF", [109, 105, 110, 111, 102], .keyword, false⟩,
  ⟨"KW_CONSTANTOF", [99, 111, 110, 115, 116, 97, 110, 116, 111, 102], .keyword, false⟩,
  ⟨"KW_INSTANCEOF", [105, 110, 115, 116, 97, 110, 99, 101, 111, 102], .keyword, false⟩,
  ⟨"KW_STORAGEOF", [115, 116, 111, 114, 97, 103, 101, 111, 102], .keyword, false⟩,
  ⟨"KW_ATOMOF", [97, 116, 111, 109, 111, 102], .keyword, false⟩,
  ⟨"KW_LENGTHOF", [108, 101, 110, 103, 116, 104, 111, 102], .keyword, false⟩,
  ⟨"KW_CLASSIDOF", [99, 108, 97, 115, 115, 105, 100, 111, 102], .keyword, false⟩,
  ⟨"KW_POSOF", [112, 111, 115, 105, 116, 105, 111, 110, 111, 102], .keyword, false⟩,
  ⟨"KW_OPERATOR", [111, 112, 101, 114, 97, 116, 111, 114], .operatorkeyword, false⟩,
  ⟨"KW_SELF", [115, 101, 108, 102], .keyword, false⟩,
  ⟨"KW_TYPE_SELF", [83, 101, 108, 102], .typekeyword, false⟩,
  ⟨"KW_SUPER", [115, 117, 112, 101, 114], .keyword, false⟩,
  ⟨"KW_TYPE_SUPER", [83, 117, 112, 101, 114], .typekeyword, false⟩,
  ⟨"KW_FLAG_INSERTFILE", [95, 95, 70, 73, 76, 69, 95, 95], .flagkeyword, false⟩,
  ⟨"KW_FLAG_INSERTLINE", [95, 95, 76, 73, 78, 69, 95, 95], .flagkeyword, false⟩,
  ⟨"KW_FLAG_INSERTFUNC", [95, 95, 70, 85, 78, 67, 95, 95], .flagkeyword, false⟩,
  ⟨"KW_FLAG_INSERTPATH", [95, 95, 70, 73, 76, 69, 80, 65, 84, 72, 95, 95], .flagkeyword, false⟩,
  ⟨"KW_FLAG_INSERTCLASS", [95, 95, 67, 76, 65, 83, 83, 95, 95], .flagkeyword, false⟩,
  ⟨"KW_FLAG_INSERTCLASSSIGNATURE", [95, 95, 67, 76, 65, 83, 83, 95, 83, 73, 71, 78, 65, 84, 85, 82, 69, 95, 95], .flagkeyword, false⟩,
  ⟨"KW_FLAG_INSERTCLASSNAMESIMPLE", [95, 95, 67, 76, 65, 83, 83, 95, 83, 73, 77, 80, 76, 69, 95, 95], .flagkeyword, false⟩,
  ⟨"KW_FLAG_INSERTCLASSNAMEPRETTY", [95, 95, 67, 76, 65, 83, 83, 95, 80, 82, 69, 84, 84, 89, 95, 95], .flagkeyword, false⟩,
  ⟨"KW_FLAG_INSERTCLASSNAMEMANGLED", [95, 95, 67, 76, 65, 83, 83, 95, 77, 65, 78, 71, 76, 69, 68, 95, 95], .flagkeyword, false⟩]

/-- `TOK_LAST_ONE`. -/
def lastOne : Nat := 128

/-- `tok_string[t]`. -/
def spelling (t : Nat) : Bytes := ((table[t]?).map (·.spelling)).getD []

/-- `getSpecialTokenWork`; Token.cpp:129-132. -/
def special (t : Nat) : Special := ((table[t]?).map (·.special)).getD .error

/-- `getTokenOperatorOverloadableFlag`; Token.cpp:134-137. -/
def overloadable (t : Nat) : Bool := ((table[t]?).map (·.overloadable)).getD false

/-- `getTokenTypeFromString`; Token.cpp:139-151: the first entry with this spelling (`strcmp`, for a
name without zero bytes), `TOK_LAST_ONE` if there is none. -/
def typeOf (aname : Bytes) : Nat :=
  let rec go : List Entry → Nat → Nat
    | [], _ => lastOne
    | e :: es, t => if e.spelling = aname then t else go es (t + 1)
  go table 0

/-- `TOK_SQUARE`. -/
def tokSquare : Nat := 6

/-- `TOK_ELLIPSIS`. -/
def tokEllipsis : Nat := 13

/-- `TOK_SHIFT_LEFT`. -/
def tokShiftLeft : Nat := 31

/-- `TOK_SHIFT_RIGHT`. -/
def tokShiftRight : Nat := 33

/-- `TOK_SHIFT_LEFT_EQUAL`. -/
def tokShiftLeftEqual : Nat := 32

/-- `TOK_SHIFT_RIGHT_EQUAL`. -/
def tokShiftRightEqual : Nat := 34

/-- `TOK_KW_OPERATOR`. -/
def tokKwOperator : Nat := 114

/-- `TOK_EOF`. -/
def tokEof : Nat := 62

/-- `TOK_IDENTIFIER`. -/
def tokIdentifier : Nat := 58

/-- `TOK_TYPE_IDENTIFIER`. -/
def tokTypeIdentifier : Nat := 59

/-- `TOK_NUMBER_SIGNED`. -/
def tokNumberSigned : Nat := 55

/-- `TOK_NUMBER_UNSIGNED`. -/
def tokNumberUnsigned : Nat := 56

/-- `TOK_DQUOTED_STRING`. -/
def tokDquotedString : Nat := 60

/-- `TOK_SQUOTED_STRING`. -/
def tokSquotedString : Nat := 61

/-- `TOK_STRUCTURED_COMMENT`. -/
def tokStructuredComment : Nat := 49

/-- `TOK_ERROR_LOWLEVEL`. -/
def tokErrorLowlevel : Nat := 100

set_option maxRecDepth 4000 in
theorem table_length : table.length = lastOne := by decide

end Ulam.Token
