import Verif.Model.Bootstrap

/-!
# The grammar file of lapex: `lapex-input-gen/src/lapex.lapex`
-/

set_option autoImplicit false

namespace Verif

/-- the lines of the file — lapex-input-gen/src/lapex.lapex:1-49. -/
def lapexLines : List String := [
  "token KW_TOKEN = \"token\";",
  "token KW_ENTRY = \"entry\";",
  "token KW_PROD = \"prod\";",
  "token EQUALS = \"=\";",
  "token SEMI = \";\";",
  "token LPAR = \"(\";",
  "token RPAR = \")\";",
  "token LBRACK = \"[\";",
  "token RBRACK = \"]\";",
  "token DIGIT = /(0|[1-9][0-9]*)/;",
  "token QUESTION = \"?\";",
  "token NOTHING = \"!\";",
  "token ASTERISK = \"*\";",
  "token PLUS = \"+\";",
  "token PIPE = \"|\";",
  "token IDENT = /[a-zA-Z][a-zA-Z0-9_]*/;",
  "token STRING = /\"([^\"\\\\\\n]|\\\\.)*\"/;",
  "token REGEX = /\\/([^\\/\\\\\\n]|\\\\.)*\\//;",
  "token WHITESPACE = /[ \\t]+/;",
  "token NEWLINE = /[\\n]/;",
  "",
  "entry rules;",
  "prod rules = rule;",
  "prod rules = rule rules;",
  "prod rule = entry_rule;",
  "prod rule = prod_rule;",
  "prod rule = token_rule;",
  "prod entry_rule = KW_ENTRY IDENT SEMI;",
  "prod prod_rule = KW_PROD IDENT (tag)? EQUALS pattern SEMI;",
  "prod token_rule = KW_TOKEN IDENT (precedence)? EQUALS string_or_regex SEMI;",
  "prod precedence = LBRACK DIGIT RBRACK;",
  "prod tag = LBRACK IDENT RBRACK;",
  "prod string_or_regex = REGEX;",
  "prod string_or_regex = STRING;",
  "prod pattern = alternative;",
  "prod pattern = NOTHING;",
  "prod alternative = concatenation PIPE alternative;",
  "prod alternative = concatenation;",
  "prod concatenation = unary concatenation;",
  "prod concatenation = unary;",
  "prod unary = option;",
  "prod unary = repetition_one;",
  "prod unary = repetition_zero;",
  "prod unary = item;",
  "prod option = item QUESTION;",
  "prod repetition_zero = item ASTERISK;",
  "prod repetition_one = item PLUS;",
  "prod item = IDENT;",
  "prod item = LPAR pattern RPAR;"]

/-- the text of the file -/
def lapexSource : List Char := List.intercalate ['\n'] (lapexLines.map String.toList)

/-- the token rules of the file, as the bootstrap parser reads them -/
def lapexTokens : List TokenRule := [
  ⟨"KW_TOKEN", none, .literal ['t', 'o', 'k', 'e', 'n']⟩,
  ⟨"KW_ENTRY", none, .literal ['e', 'n', 't', 'r', 'y']⟩,
  ⟨"KW_PROD", none, .literal ['p', 'r', 'o', 'd']⟩,
  ⟨"EQUALS", none, .literal ['=']⟩,
  ⟨"SEMI", none, .literal [';']⟩,
  ⟨"LPAR", none, .literal ['(']⟩,
  ⟨"RPAR", none, .literal [')']⟩,
  ⟨"LBRACK", none, .literal ['[']⟩,
  ⟨"RBRACK", none, .literal [']']⟩,
  ⟨"DIGIT", none, .pattern (.sequence [.alternative [.sequence [.char (.single '0')], .sequence [.charSet [.range '1' '9'] false, .repetition 0 none (.charSet [.range '0' '9'] false)]]])⟩,
  ⟨"QUESTION", none, .literal ['?']⟩,
  ⟨"NOTHING", none, .literal ['!']⟩,
  ⟨"ASTERISK", none, .literal ['*']⟩,
  ⟨"PLUS", none, .literal ['+']⟩,
  ⟨"PIPE", none, .literal ['|']⟩,
  ⟨"IDENT", none, .pattern (.sequence [.charSet [.range 'a' 'z', .range 'A' 'Z'] false, .repetition 0 none (.charSet [.range 'a' 'z', .range 'A' 'Z', .range '0' '9', .single '_'] false)])⟩,
  ⟨"STRING", none, .pattern (.sequence [.char (.single '"'), .repetition 0 none (.alternative [.sequence [.charSet [.single '"', .single '\\', .single '\n'] true], .sequence [.char (.single '\\'), .charSet [] true]]), .char (.single '"')])⟩,
  ⟨"REGEX", none, .pattern (.sequence [.char (.single '/'), .repetition 0 none (.alternative [.sequence [.charSet [.single '/', .single '\\', .single '\n'] true], .sequence [.char (.single '\\'), .charSet [] true]]), .char (.single '/')])⟩,
  ⟨"WHITESPACE", none, .pattern (.sequence [.repetition 1 none (.charSet [.single ' ', .single '\t'] false)])⟩,
  ⟨"NEWLINE", none, .pattern (.sequence [.charSet [.single '\n'] false])⟩]

end Verif
