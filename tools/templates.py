"""Generates lean/Verif/Model/CppTemplates.lean from the template files in /repo/lapex-cpp-codegen/src."""
base = '/repo/lapex-cpp-codegen/src/'
items = [
    ('lexerHeader', 'lexer/lexer.h.tpl', 'lexer/mod.rs:92', []),
    ('lexerImpl', 'lexer/lexer.cpp.tpl', 'lexer/mod.rs:96-99', ['alphabet_switch', 'automaton_switch']),
    ('tokensImpl', 'lexer/tokens.cpp.tpl', 'lexer/mod.rs:146-150', ['get_token_name_function']),
    ('tokensHeader', 'lexer/tokens.h.tpl', 'lexer/mod.rs:154-156', ['token_enum_variants']),
    ('llVisitorHeader', 'll_parser/visitor.h.tpl', 'll_parser/mod.rs:193-195', ['visitor_methods']),
    ('llHeader', 'll_parser/parser.h.tpl', 'll_parser/mod.rs:199', []),
    ('llImplHeader', 'll_parser/parser_impl.h.tpl', 'll_parser/mod.rs:209-225',
     ['visitor_enter_switch', 'visitor_exit_switch', 'grammar_entry_non_terminal', 'non_terminal_enum_variants']),
    ('llImpl', 'll_parser/parser.cpp.tpl', 'll_parser/mod.rs:229-231', ['parser_table_switch']),
    ('lrHeader', 'lr_parser/parser.h.tpl', 'lr_parser/mod.rs:87', []),
    ('lrImpl', 'lr_parser/parser.cpp.tpl', 'lr_parser/mod.rs:163-167', ['action_table', 'goto_table', 'stack_reduce_table']),
    ('lrImplHeader', 'lr_parser/parser_impl.h.tpl', 'lr_parser/mod.rs:204-215', ['non_terminal_enum_variants', 'visitor_reduce_switch', 'entry_state']),
    ('lrVisitorHeader', 'lr_parser/visitor.h.tpl', 'lr_parser/mod.rs:219-221', ['visitor_methods']),
]
codes = lambda s: '0x' + s.encode('ascii').hex()
out = ['''import Verif.Model.Template

/-!
# The templates of the C++ code generator

Generated by tools/templates.py from `lapex-cpp-codegen/src/*/*.tpl`. Each line of a file is written as a number, the chars being its digits in
base 256, so that the kernel computes with it; the line itself is repeated in a comment.
-/

set_option autoImplicit false

namespace Verif

/-- a template used by the C++ code generator, with the keys for which substitutions are supplied -/
structure CppTemplate where
  text : List Char
  supplied : List (List Char)

/-- the chars whose code points are the digits of a number in base 256 -/
def charsOf : Nat → Nat → List Char → List Char
  | 0, _, acc => acc
  | fuel + 1, n, acc => if n = 0 then acc else charsOf fuel (n / 256) (Char.ofNat (n % 256) :: acc)

/-- a line of text -/
def line (n : Nat) : List Char := charsOf (n.log2 / 8 + 1) n []
''']
for (name, path, at, keys) in items:
    text = open(base + path).read()
    lines = text.splitlines(keepends=True)
    assert ''.join(lines) == text
    out.append(f'/-- lapex-cpp-codegen/src/{path}, written with the substitutions of lapex-cpp-codegen/src/{at} -/')
    out.append(f'def {name}Template : CppTemplate where')
    out.append('  text := List.flatten [')
    for i, l in enumerate(lines):
        shown = l.rstrip('\n')
        out.append(f'    line {codes(l)}{"," if i + 1 < len(lines) else "]"} -- {shown}'.rstrip())
    out.append('  supplied := [' + ',\n    '.join(f'line {codes(k)}' for k in keys) + ']')
    for k in keys:
        out.append(f'    -- {k}')
    out.append('')
out.append('/-- all templates of the C++ code generator -/')
out.append('def cppTemplates : List CppTemplate :=\n  [' + ', '.join(n + 'Template' for n, _, _, _ in items) + ']')
out.append('\nend Verif')
open('/verif/lean/Verif/Model/CppTemplates.lean', 'w').write('\n'.join(out) + '\n')
