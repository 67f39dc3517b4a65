import Verif.Model.Parser
import Verif.Model.Print

/-
The unit tests of bant/frontend/scanner_test.cc and bant/frontend/parser_test.cc, on the model:
evidence that the model is a model of this code. (Nothing is proved for all inputs here.)
-/
namespace Bant
namespace Tests
namespace Frontend

/-- The first `n` tokens: type and text. -/
def tokens : Nat → Scanner → List (TokenType × Str)
  | 0, _ => []
  | n + 1, s =>
    let r := s.next
    (r.1.type, r.1.text) :: tokens n r.2

def tokensOf (n : Nat) (content : Str) : List (TokenType × Str) := tokens n (Scanner.init content)

/-! bant/frontend/scanner_test.cc:37-60, ends and unknown characters -/
example : tokensOf 2 [] = [(.eof, []), (.eof, [])] := by decide +kernel
example : tokensOf 2 c!" # foo" = [(.eof, []), (.eof, [])] := by decide +kernel
example : tokensOf 2 c!"@" = [(.error, c!"@"), (.eof, [])] := by decide +kernel
example : tokensOf 3 c!"if\\else" = [(.kIf, c!"if"), (.kElse, c!"else"), (.eof, [])] := by
  decide +kernel

/-! bant/frontend/scanner_test.cc:62-76, `ReportIfNewlineFoundBetweenTokens` -/
def newlines : Nat → Scanner → List Bool
  | 0, _ => []
  | n + 1, s =>
    let r := s.next
    r.1.newlineSinceLast :: newlines n r.2
example : (newlines 3 (Scanner.init c!"foo bar\nbaz")).drop 1 = [false, true] := by decide +kernel
example : (tokensOf 4 c!"foo bar\nbaz").map (·.1) = [.identifier, .identifier, .identifier, .eof] := by
  decide +kernel

/-! bant/frontend/scanner_test.cc:78-123, `SimpleTokens` -/
example : tokensOf 2 c!"(" = [(.op '(', c!"("), (.eof, [])] := by decide +kernel
example : tokensOf 2 c!")" = [(.op ')', c!")"), (.eof, [])] := by decide +kernel
example : tokensOf 2 c!"[" = [(.op '[', c!"["), (.eof, [])] := by decide +kernel
example : tokensOf 2 c!"]" = [(.op ']', c!"]"), (.eof, [])] := by decide +kernel
example : tokensOf 2 c!"{" = [(.op '{', c!"{"), (.eof, [])] := by decide +kernel
example : tokensOf 2 c!"}" = [(.op '}', c!"}"), (.eof, [])] := by decide +kernel
example : tokensOf 2 c!"," = [(.op ',', c!","), (.eof, [])] := by decide +kernel
example : tokensOf 2 c!":" = [(.op ':', c!":"), (.eof, [])] := by decide +kernel
example : tokensOf 2 c!"+" = [(.op '+', c!"+"), (.eof, [])] := by decide +kernel
example : tokensOf 2 c!"-" = [(.op '-', c!"-"), (.eof, [])] := by decide +kernel
example : tokensOf 2 c!"*" = [(.op '*', c!"*"), (.eof, [])] := by decide +kernel
example : tokensOf 2 c!"/" = [(.op '/', c!"/"), (.eof, [])] := by decide +kernel
example : tokensOf 2 c!"." = [(.op '.', c!"."), (.eof, [])] := by decide +kernel
example : tokensOf 2 c!"%" = [(.op '%', c!"%"), (.eof, [])] := by decide +kernel
example : tokensOf 2 c!"=" = [(.op '=', c!"="), (.eof, [])] := by decide +kernel
example : tokensOf 2 c!"==" = [(.opEq '=', c!"=="), (.eof, [])] := by decide +kernel
example : tokensOf 2 c!"!=" = [(.opEq '!', c!"!="), (.eof, [])] := by decide +kernel
example : tokensOf 2 c!"<=" = [(.opEq '<', c!"<="), (.eof, [])] := by decide +kernel
example : tokensOf 2 c!">=" = [(.opEq '>', c!">="), (.eof, [])] := by decide +kernel
example : tokensOf 2 c!">" = [(.op '>', c!">"), (.eof, [])] := by decide +kernel
example : tokensOf 2 c!"<" = [(.op '<', c!"<"), (.eof, [])] := by decide +kernel
example : tokensOf 2 c!"not" = [(.op '!', c!"not"), (.eof, [])] := by decide +kernel
example : tokensOf 2 c!"!" = [(.op '!', c!"!"), (.eof, [])] := by decide +kernel
example : tokensOf 2 c!"for" = [(.kFor, c!"for"), (.eof, [])] := by decide +kernel
example : tokensOf 2 c!"in" = [(.kIn, c!"in"), (.eof, [])] := by decide +kernel
example : tokensOf 2 c!"not in" = [(.kNotIn, c!"not in"), (.eof, [])] := by decide +kernel
example : tokensOf 2 c!"not  in" = [(.kNotIn, c!"not  in"), (.eof, [])] := by decide +kernel
example : tokensOf 2 c!"if" = [(.kIf, c!"if"), (.eof, [])] := by decide +kernel
example : tokensOf 2 c!"else" = [(.kElse, c!"else"), (.eof, [])] := by decide +kernel
example : tokensOf 2 c!"some_random_thing" = [(.identifier, c!"some_random_thing"), (.eof, [])] := by decide +kernel

/-! bant/frontend/scanner_test.cc:125-211: numbers, `not in`, strings -/
example : tokensOf 5 c!"42 0o42 0xff \"hello world\"" =
    [(.numberLiteral, c!"42"), (.numberLiteral, c!"0o42"), (.numberLiteral, c!"0xff"), (.stringLiteral, c!"\"hello world\""), (.eof, c!"")] := by decide +kernel
example : tokensOf 7 c!"43 not in answer foo in 12" =
    [(.numberLiteral, c!"43"), (.kNotIn, c!"not in"), (.identifier, c!"answer"), (.identifier, c!"foo"), (.kIn, c!"in"), (.numberLiteral, c!"12"), (.eof, c!"")] := by decide +kernel
example : tokensOf 2 c!"\"double\"" =
    [(.stringLiteral, c!"\"double\""), (.eof, c!"")] := by decide +kernel
example : tokensOf 2 c!"'single'" =
    [(.stringLiteral, c!"'single'"), (.eof, c!"")] := by decide +kernel
example : tokensOf 2 c!"\"hello \\\" ' world\"" =
    [(.stringLiteral, c!"\"hello \\\" ' world\""), (.eof, c!"")] := by decide +kernel
example : tokensOf 2 c!"'hello \" \\' world'" =
    [(.stringLiteral, c!"'hello \" \\' world'"), (.eof, c!"")] := by decide +kernel
example : tokensOf 2 c!"\"\\\\\"" =
    [(.stringLiteral, c!"\"\\\\\""), (.eof, c!"")] := by decide +kernel
example : tokensOf 2 c!"\"\\\\\\\\\"" =
    [(.stringLiteral, c!"\"\\\\\\\\\""), (.eof, c!"")] := by decide +kernel
example : tokensOf 2 c!"\"\"\"hello \"\" world\"\"\"" =
    [(.stringLiteral, c!"\"\"\"hello \"\" world\"\"\""), (.eof, c!"")] := by decide +kernel
example : tokensOf 2 c!"\"\"\"\"\"\"" =
    [(.stringLiteral, c!"\"\"\"\"\"\""), (.eof, c!"")] := by decide +kernel
example : tokensOf 2 c!"\"\"\"\"\"" =
    [(.error, c!"\"\"\"\"\""), (.eof, c!"")] := by decide +kernel
example : tokensOf 2 c!"  r'foo'  " =
    [(.stringLiteral, c!"r'foo'"), (.eof, c!"")] := by decide +kernel
example : tokensOf 2 c!"r''" =
    [(.stringLiteral, c!"r''"), (.eof, c!"")] := by decide +kernel

/-! bant/frontend/parser_test.cc: as there, trees are compared by what they are printed as; and
what is printed is parsed and printed again (`RoundTripPrintParseAgainTest`, :110-145) -/

def number (s : Str) : Node := (intFromLiteral s).getD .null

def tree (s : Str) : Node :=
  match Parser.parseFile s with
  | some (n, _) => n
  | none => .null

/-- No error has been reported. -/
def accepted (s : Str) : Bool :=
  match Parser.parseFile s with
  | some (_, st) => st.errs.isEmpty
  | none => false

/-- All statements, each with a newline. -/
def lines : Node → Str
  | .list _ xs => xs.flatMap fun x => Print.print 0 x ++ c!"\n"
  | _ => []

/-- The tree is the expected one, as printed; and printing and parsing again ends in the same text. -/
def parsesTo (s : Str) (n : Node) : Bool :=
  accepted s && Print.print 0 (tree s) = Print.print 0 n &&
    lines (tree (lines (tree s))) = lines (tree s)

/-! bant/frontend/parser_test.cc:151-155, `ParseEmpty` -/
example : parsesTo [] (.list .list []) = true := by decide +kernel
example : parsesTo c!"# just a with newline\n" (.list .list []) = true := by decide +kernel
example : parsesTo c!"# just a comment without newline" (.list .list []) = true := by decide +kernel

/-! bant/frontend/parser_test.cc:165-168, `IntConversion` -/
def valueOf : Node → Option Int
  | .list _ (.assign _ (.int _ v) :: _) => some v
  | _ => none
example : valueOf (tree c!"a=0o123") = some 83 := by decide +kernel
example : valueOf (tree c!"a=0xabc") = some 2748 := by decide +kernel

/-! bant/frontend/parser_test.cc:170-185, `Assignments` -/
def assignments : Str :=
    c!"\n" ++
    c!"foo = \"regular_string\"\n" ++
    c!"backslash = \"\\\\\"\n" ++
    c!"bar = r\"raw_string\"\n" ++
    c!"baz = \"\"\"triple quoted\"\"\"\n" ++
    c!"quux = R\"\"\"raw triple quoted\"\"\"\n"
def assignmentsTree : Node := .list .list [(.assign (.ident c!"foo")
    (.str c!"regular_string" false false)), (.assign (.ident c!"backslash")
    (.str c!"\\\\" false false)), (.assign (.ident c!"bar") (.str c!"raw_string" false true)),
    (.assign (.ident c!"baz") (.str c!"triple quoted" true false)), (.assign (.ident c!"quux")
    (.str c!"raw triple quoted" true true))]
example : parsesTo assignments assignmentsTree = true := by decide +kernel

/-! bant/frontend/parser_test.cc:188-197, `CallOnString` -/
def callOnString : Str :=
    c!"\n" ++
    c!"funcall(\"Some {} str\".format(\"baz\"))\n"
def callOnStringTree : Node := .list .list [(.call (.ident c!"funcall")
    (.list .tuple [(.binop (.op '.') (.str c!"Some {} str" false false) (.call (.ident c!"format")
    (.list .tuple [(.str c!"baz" false false)])))]))]
example : parsesTo callOnString callOnStringTree = true := by decide +kernel

/-! bant/frontend/parser_test.cc:199-210, `AssignmentToTuple` -/
def assignmentToTuple : Str :=
    c!"\n" ++
    c!"(a, b) = (\"foo\", \"bar\")\n" ++
    c!"(x, y) = foo()\n" ++
    c!"#a = ((u, v) = foo())   # should this work ? Right now we only do toplevel.\n"
def assignmentToTupleTree : Node := .list .list [(.assign (.list .tuple [(.ident c!"a"),
    (.ident c!"b")]) (.list .tuple [(.str c!"foo" false false), (.str c!"bar" false false)])),
    (.assign (.list .tuple [(.ident c!"x"), (.ident c!"y")]) (.call (.ident c!"foo")
    (.list .tuple [])))]
example : parsesTo assignmentToTuple assignmentToTupleTree = true := by decide +kernel

/-! bant/frontend/parser_test.cc:212-243, `SimpleExpressions` -/
def simpleExpressions : Str :=
    c!"\n" ++
    c!"a = 40 + 2\n" ++
    c!"b = 30 * 7 / 2\n" ++
    c!"c = 30 + 7 / 2\n" ++
    c!"d = (30 + 7) / 2\n" ++
    c!"e = 30 + (7 / 2)\n" ++
    c!"f = -30\n" ++
    c!"g = a == b\n" ++
    c!"h = not (a == b)\n" ++
    c!"h1 = !(a == b)\n" ++
    c!"i = a != b\n" ++
    c!"j = 0o123  # octal number\n" ++
    c!"k = 0xab   # hex number\n"
def simpleExpressionsTree : Node := .list .list [(.assign (.ident c!"a") (.binop (.op '+') (.int []
    40) (.int [] 2))), (.assign (.ident c!"b") (.binop (.op '/') (.binop (.op '*') (.int [] 30)
    (.int [] 7)) (.int [] 2))), (.assign (.ident c!"c") (.binop (.op '/') (.binop (.op '+') (.int []
    30) (.int [] 7)) (.int [] 2))), (.assign (.ident c!"d") (.binop (.op '/') (.binop (.op '+')
    (.int [] 30) (.int [] 7)) (.int [] 2))), (.assign (.ident c!"e") (.binop (.op '+') (.int [] 30)
    (.binop (.op '/') (.int [] 7) (.int [] 2)))), (.assign (.ident c!"f") (.unary (.op '-') (.int []
    30))), (.assign (.ident c!"g") (.binop (.opEq '=') (.ident c!"a") (.ident c!"b"))),
    (.assign (.ident c!"h") (.unary (.op '!') (.binop (.opEq '=') (.ident c!"a") (.ident c!"b")))),
    (.assign (.ident c!"h1") (.unary (.op '!') (.binop (.opEq '=') (.ident c!"a") (.ident c!"b")))),
    (.assign (.ident c!"i") (.binop (.opEq '!') (.ident c!"a") (.ident c!"b"))),
    (.assign (.ident c!"j") (number c!"0o123")), (.assign (.ident c!"k") (number c!"0xab"))]
example : parsesTo simpleExpressions simpleExpressionsTree = true := by decide +kernel

/-! bant/frontend/parser_test.cc:245-254, `InExpr` -/
def inExpr : Str :=
    c!"\n" ++
    c!"a = \"x\" in \"foobax\"\n" ++
    c!"b = \"x\" not in \"foobax\"\n"
def inExprTree : Node := .list .list [(.assign (.ident c!"a") (.binop .kIn (.str c!"x" false false)
    (.str c!"foobax" false false))), (.assign (.ident c!"b")
    (.binop .kNotIn (.str c!"x" false false) (.str c!"foobax" false false)))]
example : parsesTo inExpr inExprTree = true := by decide +kernel

/-! bant/frontend/parser_test.cc:256-280, `ArrayAccess` -/
def arrayAccess : Str :=
    c!"\n" ++
    c!"[1234]      # toplevel array is not an array access\n" ++
    c!"a = x[42]\n" ++
    c!"b = x[1:2]\n" ++
    c!"c = x[1:]\n" ++
    c!"d = x[:2]\n" ++
    c!"e = x[42][17]\n" ++
    c!"f = x       # Not a x[5678] access, as newline follows and the following is ...\n" ++
    c!"[5678]      # ... just a toplevel array\n" ++
    c!"g = h()[42] # some expression follwed by an array access (same line)\n"
def arrayAccessTree : Node := .list .list [(.list .list [(.int [] 1234)]), (.assign (.ident c!"a")
    (.binop (.op '[') (.ident c!"x") (.int [] 42))), (.assign (.ident c!"b") (.binop (.op '[')
    (.ident c!"x") (.binop (.op ':') (.int [] 1) (.int [] 2)))), (.assign (.ident c!"c")
    (.binop (.op '[') (.ident c!"x") (.binop (.op ':') (.int [] 1) .null))), (.assign (.ident c!"d")
    (.binop (.op '[') (.ident c!"x") (.binop (.op ':') .null (.int [] 2)))), (.assign (.ident c!"e")
    (.binop (.op '[') (.binop (.op '[') (.ident c!"x") (.int [] 42)) (.int [] 17))),
    (.assign (.ident c!"f") (.ident c!"x")), (.list .list [(.int [] 5678)]), (.assign (.ident c!"g")
    (.binop (.op '[') (.call (.ident c!"h") (.list .tuple [])) (.int [] 42)))]
example : parsesTo arrayAccess arrayAccessTree = true := by decide +kernel

/-! bant/frontend/parser_test.cc:282-296, `ParenthizedExpressions` -/
def parenthizedExpressions : Str :=
    c!"\n" ++
    c!"foo = \"a\" + \"b\"\n" ++
    c!"fmt = \"a%s\" % \"b\"\n" ++
    c!"bar = (\"a\" + \"b\")\n" ++
    c!"baz = ((((\"a\" + \"b\"))))\n"
def parenthizedExpressionsTree : Node := .list .list [(.assign (.ident c!"foo") (.binop (.op '+')
    (.str c!"a" false false) (.str c!"b" false false))), (.assign (.ident c!"fmt") (.binop (.op '%')
    (.str c!"a%s" false false) (.str c!"b" false false))), (.assign (.ident c!"bar")
    (.binop (.op '+') (.str c!"a" false false) (.str c!"b" false false))), (.assign (.ident c!"baz")
    (.binop (.op '+') (.str c!"a" false false) (.str c!"b" false false)))]
example : parsesTo parenthizedExpressions parenthizedExpressionsTree = true := by decide +kernel

/-! bant/frontend/parser_test.cc:298-306, `EmptyTuple` -/
def emptyTuple : Str :=
    c!"\n" ++
    c!"empty = ()\n"
def emptyTupleTree : Node := .list .list [(.assign (.ident c!"empty") (.list .tuple []))]
example : parsesTo emptyTuple emptyTupleTree = true := by decide +kernel

/-! bant/frontend/parser_test.cc:308-326, `TupleExpressions` -/
def tupleExpressions : Str :=
    c!"\n" ++
    c!"empty = ()\n" ++
    c!"foo = (\"a\", \"b\", \"c\")\n" ++
    c!"bar = (\"a\", \"b\")\n" ++
    c!"baz = (\"a\",)    # Comma diffentiates between paren-expr and tuple\n" ++
    c!"qux = (\"a\")     # ... this is just a parenthized expression\n" ++
    c!"buz = ((\"a\",))  # parenthized expression that contains a single tuple.\n"
def tupleExpressionsTree : Node := .list .list [(.assign (.ident c!"empty") (.list .tuple [])),
    (.assign (.ident c!"foo") (.list .tuple [(.str c!"a" false false), (.str c!"b" false false),
    (.str c!"c" false false)])), (.assign (.ident c!"bar") (.list .tuple [(.str c!"a" false false),
    (.str c!"b" false false)])), (.assign (.ident c!"baz")
    (.list .tuple [(.str c!"a" false false)])), (.assign (.ident c!"qux") (.str c!"a" false false)),
    (.assign (.ident c!"buz") (.list .tuple [(.str c!"a" false false)]))]
example : parsesTo tupleExpressions tupleExpressionsTree = true := by decide +kernel

/-! bant/frontend/parser_test.cc:328-338, `MapAssign` -/
def mapAssign : Str :=
    c!"\n" ++
    c!"str_map = { \"orange\" : \"fruit\" }\n" ++
    c!"num_map = { \"answer\" : 42 }\n" ++
    c!"id_map = { SOME_IDENTIFIER : ANOTHER_ID }\n"
def mapAssignTree : Node := .list .list [(.assign (.ident c!"str_map")
    (.list .map [(.binop (.op ':') (.str c!"orange" false false) (.str c!"fruit" false false))])),
    (.assign (.ident c!"num_map") (.list .map [(.binop (.op ':') (.str c!"answer" false false)
    (.int [] 42))])), (.assign (.ident c!"id_map") (.list .map [(.binop (.op ':')
    (.ident c!"SOME_IDENTIFIER") (.ident c!"ANOTHER_ID"))]))]
example : parsesTo mapAssign mapAssignTree = true := by decide +kernel

/-! bant/frontend/parser_test.cc:340-360, `Lists` -/
def lists : Str :=
    c!"\n" ++
    c!"empty =   []\n" ++
    c!"one =     [a]\n" ++
    c!"one_c =   [a,]   # Same with trailling comma\n" ++
    c!"two =     [a, b]\n" ++
    c!"two_c =   [a, b,]\n" ++
    c!"three =   [a, b, c]\n" ++
    c!"three_c = [a, b, c,]\n"
def listsTree : Node := .list .list [(.assign (.ident c!"empty") (.list .list [])),
    (.assign (.ident c!"one") (.list .list [(.ident c!"a")])), (.assign (.ident c!"one_c")
    (.list .list [(.ident c!"a")])), (.assign (.ident c!"two") (.list .list [(.ident c!"a"),
    (.ident c!"b")])), (.assign (.ident c!"two_c") (.list .list [(.ident c!"a"), (.ident c!"b")])),
    (.assign (.ident c!"three") (.list .list [(.ident c!"a"), (.ident c!"b"), (.ident c!"c")])),
    (.assign (.ident c!"three_c") (.list .list [(.ident c!"a"), (.ident c!"b"), (.ident c!"c")]))]
example : parsesTo lists listsTree = true := by decide +kernel

/-! bant/frontend/parser_test.cc:362-374, `SimpleFunctionCalls` -/
def simpleFunctionCalls : Str :=
    c!"\n" ++
    c!"foo(\"foo\", k)\n" ++
    c!"nested.bar(\"baz\", m)\n" ++
    c!"baz()\n"
def simpleFunctionCallsTree : Node := .list .list [(.call (.ident c!"foo")
    (.list .tuple [(.str c!"foo" false false), (.ident c!"k")])), (.binop (.op '.')
    (.ident c!"nested") (.call (.ident c!"bar") (.list .tuple [(.str c!"baz" false false),
    (.ident c!"m")]))), (.call (.ident c!"baz") (.list .tuple []))]
example : parsesTo simpleFunctionCalls simpleFunctionCallsTree = true := by decide +kernel

/-! bant/frontend/parser_test.cc:376-387, `ParseFunctionCall` -/
def parseFunctionCall : Str :=
    c!"\n" ++
    c!"foo(\"x\", \"\"\"y\"\"\")  # Triple quoted-string should look like regular one.\n" ++
    c!"[bar(\"a\")]         # function call result as a value inside a list\n"
def parseFunctionCallTree : Node := .list .list [(.call (.ident c!"foo")
    (.list .tuple [(.str c!"x" false false), (.str c!"y" true false)])),
    (.list .list [(.call (.ident c!"bar") (.list .tuple [(.str c!"a" false false)]))])]
example : parsesTo parseFunctionCall parseFunctionCallTree = true := by decide +kernel

/-! bant/frontend/parser_test.cc:389-439, `ParseListComprehension` -/
def parseListComprehension : Str :=
    c!"\n" ++
    c!"  [i for i in [ \"x\", \"y\"]]                         # simple expr not a tuple\n" ++
    c!"  [\n" ++
    c!"     (\"foo\" + i,)  # Comma helps identify this as tuple expression\n" ++
    c!"     for i in [\"a\", \"b\", \"c\"]\n" ++
    c!"  ]\n" ++
    c!"  [i + j for i in [ \"x\", \"y\"] for j in [\"a\", \"b\"]] # nested\n" ++
    c!"  [i + j for i, j in [(\"a\", \"b\"), (\"x\", \"y\")]]     # multi-var into tuple\n" ++
    c!"  [i + j for (i, j) in [(\"a\", \"b\"), (\"x\", \"y\")]]   # multi-var; var-list tuple\n" ++
    c!"  m = { i : \"bar\" for i in [\"x\", \"y\"]}             # map tuple comprehension\n"
def parseListComprehensionTree : Node := .list .list [(.compr .list (.binop .kFor (.ident c!"i")
    (.binop .kIn (.list .tuple [(.ident c!"i")]) (.list .list [(.str c!"x" false false),
    (.str c!"y" false false)])))), (.compr .list (.binop .kFor (.list .tuple [(.binop (.op '+')
    (.str c!"foo" false false) (.ident c!"i"))]) (.binop .kIn (.list .tuple [(.ident c!"i")])
    (.list .list [(.str c!"a" false false), (.str c!"b" false false), (.str c!"c" false false)])))),
    (.compr .list (.binop .kFor (.binop .kFor (.binop (.op '+') (.ident c!"i") (.ident c!"j"))
    (.binop .kIn (.list .tuple [(.ident c!"i")]) (.list .list [(.str c!"x" false false),
    (.str c!"y" false false)]))) (.binop .kIn (.list .tuple [(.ident c!"j")])
    (.list .list [(.str c!"a" false false), (.str c!"b" false false)])))),
    (.compr .list (.binop .kFor (.binop (.op '+') (.ident c!"i") (.ident c!"j"))
    (.binop .kIn (.list .tuple [(.ident c!"i"), (.ident c!"j")])
    (.list .list [(.list .tuple [(.str c!"a" false false), (.str c!"b" false false)]),
    (.list .tuple [(.str c!"x" false false), (.str c!"y" false false)])])))),
    (.compr .list (.binop .kFor (.binop (.op '+') (.ident c!"i") (.ident c!"j"))
    (.binop .kIn (.list .tuple [(.ident c!"i"), (.ident c!"j")])
    (.list .list [(.list .tuple [(.str c!"a" false false), (.str c!"b" false false)]),
    (.list .tuple [(.str c!"x" false false), (.str c!"y" false false)])])))),
    (.assign (.ident c!"m") (.compr .map (.binop .kFor (.binop (.op ':') (.ident c!"i")
    (.str c!"bar" false false)) (.binop .kIn (.list .tuple [(.ident c!"i")])
    (.list .list [(.str c!"x" false false), (.str c!"y" false false)])))))]
example : parsesTo parseListComprehension parseListComprehensionTree = true := by decide +kernel

/-! bant/frontend/parser_test.cc:443-455, `ListComprehensionAfterExpressionIsNotAnArrayAccess` -/
def listComprehensionAfterExpressionIsNotAnArrayAccess : Str :=
    c!"\n" ++
    c!"a = 42 + 8\n" ++
    c!"[ f for f in [27]]\n"
def listComprehensionAfterExpressionIsNotAnArrayAccessTree : Node := .list .list [(.assign (.ident c!"a")
    (.binop (.op '+') (.int [] 42) (.int [] 8))), (.compr .list (.binop .kFor (.ident c!"f")
    (.binop .kIn (.list .tuple [(.ident c!"f")]) (.list .list [(.int [] 27)]))))]
example : parsesTo listComprehensionAfterExpressionIsNotAnArrayAccess listComprehensionAfterExpressionIsNotAnArrayAccessTree = true := by decide +kernel

/-! bant/frontend/parser_test.cc:457-460, `ParseTernary` -/
example : Print.print 0 (tree c!"[foo() if a + b else baz()]") = c!"[[foo() if a + b else baz()]]" := by
  decide +kernel

end Frontend
end Tests
end Bant
