import Verif.Model.Template

/-!
# The templates of the C++ code generator

Generated by tools/templates.py from `lapex-cpp-codegen/src/*/*.tpl`. Each line of a file is written as a number, the chars being its digits in
base 256, so that the kernel computes with it; the line itself is repeated in a comment.
-/

set_option autoImplicit false

namespace Verif

/-- a template used by the C++ code generator, with the keys for which substitutions are supplied -/
structure CppTemplate where
  text : List Char
  supplied : List (List Char)

/-- the chars whose code points are the digits of a number in base 256 -/
def charsOf : Nat → Nat → List Char → List Char
  | 0, _, acc => acc
  | fuel + 1, n, acc => if n = 0 then acc else charsOf fuel (n / 256) (Char.ofNat (n % 256) :: acc)

/-- a line of text -/
def line (n : Nat) : List Char := charsOf (n.log2 / 8 + 1) n []

/-- lapex-cpp-codegen/src/lexer/lexer.h.tpl, written with the substitutions of lapex-cpp-codegen/src/lexer/mod.rs:92 -/
def lexerHeaderTemplate : CppTemplate where
  text := List.flatten [
    line 0x23707261676d61206f6e63650a, -- #pragma once
    line 0x0a, --
    line 0x23696e636c7564652022746f6b656e732e68220a, -- #include "tokens.h"
    line 0x23696e636c756465203c6973747265616d3e0a, -- #include <istream>
    line 0x23696e636c756465203c63737464696e743e0a, -- #include <cstdint>
    line 0x0a, --
    line 0x6e616d657370616365206c657865720a, -- namespace lexer
    line 0x7b0a, -- {
    line 0x20202020636c617373204c657865720a, --     class Lexer
    line 0x202020207b0a, --     {
    line 0x20202020202020207374643a3a6973747265616d2026696e5f63686172733b0a, --         std::istream &in_chars;
    line 0x202020202020202075696e7433325f742063683b0a, --         uint32_t ch;
    line 0x2020202020202020696e74206572723b0a, --         int err;
    line 0x202020202020202073697a655f7420706f736974696f6e3b0a, --         size_t position;
    line 0x202020202020202073697a655f742073746172745f706f733b0a, --         size_t start_pos;
    line 0x202020202020202073697a655f7420656e645f706f733b0a, --         size_t end_pos;
    line 0x0a, --
    line 0x202020207075626c69633a0a, --     public:
    line 0x20202020202020204c65786572287374643a3a6973747265616d2026696e5f6368617273293b0a, --         Lexer(std::istream &in_chars);
    line 0x2020202020202020546f6b656e54797065206e65787428293b0a, --         TokenType next();
    line 0x202020202020202073697a655f7420737461727428293b0a, --         size_t start();
    line 0x202020202020202073697a655f7420656e6428293b0a, --         size_t end();
    line 0x202020207d3b0a, --     };
    line 0x7d] -- }
  supplied := []

/-- lapex-cpp-codegen/src/lexer/lexer.cpp.tpl, written with the substitutions of lapex-cpp-codegen/src/lexer/mod.rs:96-99 -/
def lexerImplTemplate : CppTemplate where
  text := List.flatten [
    line 0x23696e636c75646520226c657865722e68220a, -- #include "lexer.h"
    line 0x0a, --
    line 0x6e616d657370616365206c657865720a, -- namespace lexer
    line 0x7b0a, -- {
    line 0x202020204c657865723a3a4c65786572287374643a3a6973747265616d2026696e29203a20696e5f636861727328696e292c206368282d31292c206572722830292c2073746172745f706f732830292c20656e645f706f732830292c20706f736974696f6e283029207b7d0a, --     Lexer::Lexer(std::istream &in) : in_chars(in), ch(-1), err(0), start_pos(0), end_pos(0), position(0) {}
    line 0x0a, --
    line 0x202020202f2f204272616e63686c657373205554462d383a2068747470733a2f2f6769746875622e636f6d2f736b6565746f2f6272616e63686c6573732d757466380a, --     // Branchless UTF-8: https://github.com/skeeto/branchless-utf8
    line 0x20202020766f696420757466385f6465636f6465287374643a3a6973747265616d2026696e2c2075696e7433325f74202a632c20696e74202a65290a, --     void utf8_decode(std::istream &in, uint32_t *c, int *e)
    line 0x202020207b0a, --     {
    line 0x202020202020202073746174696320636f6e73742063686172206c656e677468735b5d203d207b0a, --         static const char lengths[] = {
    line 0x202020202020202020202020312c20312c20312c20312c20312c20312c20312c20312c20312c20312c20312c20312c20312c20312c20312c20312c0a, --             1, 1, 1, 1, 1, 1, 1, 1, 1, 1, 1, 1, 1, 1, 1, 1,
    line 0x202020202020202020202020302c20302c20302c20302c20302c20302c20302c20302c20322c20322c20322c20322c20332c20332c20342c20307d3b0a, --             0, 0, 0, 0, 0, 0, 0, 0, 2, 2, 2, 2, 3, 3, 4, 0};
    line 0x202020202020202073746174696320636f6e737420696e74206d61736b735b5d203d207b307830302c20307837662c20307831662c20307830662c20307830377d3b0a, --         static const int masks[] = {0x00, 0x7f, 0x1f, 0x0f, 0x07};
    line 0x202020202020202073746174696320636f6e73742075696e7433325f74206d696e735b5d203d207b343139343330342c20302c203132382c20323034382c2036353533367d3b0a, --         static const uint32_t mins[] = {4194304, 0, 128, 2048, 65536};
    line 0x202020202020202073746174696320636f6e737420696e74207368696674635b5d203d207b302c2031382c2031322c20362c20307d3b0a, --         static const int shiftc[] = {0, 18, 12, 6, 0};
    line 0x202020202020202073746174696320636f6e737420696e74207368696674655b5d203d207b302c20362c20342c20322c20307d3b0a, --         static const int shifte[] = {0, 6, 4, 2, 0};
    line 0x0a, --
    line 0x202020202020202063686172206275665b345d203d207b307d3b0a, --         char buf[4] = {0};
    line 0x2020202020202020696e2e72656164286275662c2031293b0a, --         in.read(buf, 1);
    line 0x202020202020202075696e74385f74202a73203d202875696e74385f74202a296275663b0a, --         uint8_t *s = (uint8_t *)buf;
    line 0x2020202020202020696e74206c656e203d206c656e677468735b735b305d203e3e20335d3b0a, --         int len = lengths[s[0] >> 3];
    line 0x2020202020202020696e2e7265616428627566202b20312c20286c656e203e203129202a20286c656e202d203129293b0a, --         in.read(buf + 1, (len > 1) * (len - 1));
    line 0x0a, --
    line 0x20202020202020202f2a20417373756d65206120666f75722d627974652063686172616374657220616e64206c6f616420666f75722062797465732e20556e757365642062697473206172650a, --         /* Assume a four-byte character and load four bytes. Unused bits are
    line 0x2020202020202020202a2073686966746564206f75742e0a, --          * shifted out.
    line 0x2020202020202020202a2f0a, --          */
    line 0x20202020202020202a63203d202875696e7433325f742928735b305d2026206d61736b735b6c656e5d29203c3c2031383b0a, --         *c = (uint32_t)(s[0] & masks[len]) << 18;
    line 0x20202020202020202a63207c3d202875696e7433325f742928735b315d2026203078336629203c3c2031323b0a, --         *c |= (uint32_t)(s[1] & 0x3f) << 12;
    line 0x20202020202020202a63207c3d202875696e7433325f742928735b325d2026203078336629203c3c20363b0a, --         *c |= (uint32_t)(s[2] & 0x3f) << 6;
    line 0x20202020202020202a63207c3d202875696e7433325f742928735b335d2026203078336629203c3c20303b0a, --         *c |= (uint32_t)(s[3] & 0x3f) << 0;
    line 0x20202020202020202a63203e3e3d207368696674635b6c656e5d3b0a, --         *c >>= shiftc[len];
    line 0x0a, --
    line 0x20202020202020202f2a20416363756d756c6174652074686520766172696f7573206572726f7220636f6e646974696f6e732e202a2f0a, --         /* Accumulate the various error conditions. */
    line 0x20202020202020202a65203d20282a63203c206d696e735b6c656e5d29203c3c20363b2020202020202f2f206e6f6e2d63616e6f6e6963616c20656e636f64696e670a, --         *e = (*c < mins[len]) << 6;      // non-canonical encoding
    line 0x20202020202020202a65207c3d2028282a63203e3e20313129203d3d203078316229203c3c20373b202f2f20737572726f676174652068616c663f0a, --         *e |= ((*c >> 11) == 0x1b) << 7; // surrogate half?
    line 0x20202020202020202a65207c3d20282a63203e20307831304646464629203c3c20383b2020202020202f2f206f7574206f662072616e67653f0a, --         *e |= (*c > 0x10FFFF) << 8;      // out of range?
    line 0x20202020202020202a65207c3d2028735b315d2026203078633029203e3e20323b0a, --         *e |= (s[1] & 0xc0) >> 2;
    line 0x20202020202020202a65207c3d2028735b325d2026203078633029203e3e20343b0a, --         *e |= (s[2] & 0xc0) >> 4;
    line 0x20202020202020202a65207c3d2028735b335d29203e3e20363b0a, --         *e |= (s[3]) >> 6;
    line 0x20202020202020202a65205e3d20307832613b202f2f20746f702074776f2062697473206f662065616368207461696c206279746520636f72726563743f0a, --         *e ^= 0x2a; // top two bits of each tail byte correct?
    line 0x20202020202020202a65203e3e3d207368696674655b6c656e5d3b0a, --         *e >>= shifte[len];
    line 0x202020207d0a, --     }
    line 0x0a, --
    line 0x2020202073697a655f74204c657865723a3a737461727428290a, --     size_t Lexer::start()
    line 0x202020207b0a, --     {
    line 0x202020202020202072657475726e20746869732d3e73746172745f706f733b0a, --         return this->start_pos;
    line 0x202020207d0a, --     }
    line 0x2020202073697a655f74204c657865723a3a656e6428290a, --     size_t Lexer::end()
    line 0x202020207b0a, --     {
    line 0x202020202020202072657475726e20746869732d3e656e645f706f733b0a, --         return this->end_pos;
    line 0x202020207d0a, --     }
    line 0x0a, --
    line 0x20202020546f6b656e54797065204c657865723a3a6e65787428290a, --     TokenType Lexer::next()
    line 0x202020207b0a, --     {
    line 0x202020202020202075696e7433325f74207374617465203d20303b0a, --         uint32_t state = 0;
    line 0x2020202020202020746869732d3e73746172745f706f73203d20706f736974696f6e3b0a, --         this->start_pos = position;
    line 0x20202020202020207768696c65202831290a, --         while (1)
    line 0x20202020202020207b0a, --         {
    line 0x20202020202020202020202069662028746869732d3e6368203d3d202d31290a, --             if (this->ch == -1)
    line 0x2020202020202020202020207b0a, --             {
    line 0x20202020202020202020202020202020757466385f6465636f646528746869732d3e696e5f63686172732c2026746869732d3e63682c2026746869732d3e657272293b0a, --                 utf8_decode(this->in_chars, &this->ch, &this->err);
    line 0x2020202020202020202020207d0a, --             }
    line 0x20202020202020202020202069662028746869732d3e657272290a, --             if (this->err)
    line 0x2020202020202020202020207b0a, --             {
    line 0x2020202020202020202020202020202072657475726e20546f6b656e547970653a3a544b5f4552523b0a, --                 return TokenType::TK_ERR;
    line 0x2020202020202020202020207d0a, --             }
    line 0x0a, --
    line 0x2020202020202020202020202f2a7b616c7068616265745f7377697463687d2a2f0a, --             /*{alphabet_switch}*/
    line 0x2020202020202020202020202f2a7b6175746f6d61746f6e5f7377697463687d2a2f0a, --             /*{automaton_switch}*/
    line 0x202020202020202020202020746869732d3e706f736974696f6e202b3d20313b0a, --             this->position += 1;
    line 0x20202020202020207d0a, --         }
    line 0x202020202020202072657475726e20546f6b656e547970653a3a544b5f4552523b0a, --         return TokenType::TK_ERR;
    line 0x202020207d0a, --     }
    line 0x7d] -- }
  supplied := [line 0x616c7068616265745f737769746368,
    line 0x6175746f6d61746f6e5f737769746368]
    -- alphabet_switch
    -- automaton_switch

/-- lapex-cpp-codegen/src/lexer/tokens.cpp.tpl, written with the substitutions of lapex-cpp-codegen/src/lexer/mod.rs:146-150 -/
def tokensImplTemplate : CppTemplate where
  text := List.flatten [
    line 0x23696e636c7564652022746f6b656e732e68220a, -- #include "tokens.h"
    line 0x0a, --
    line 0x6e616d657370616365206c657865720a, -- namespace lexer
    line 0x7b0a, -- {
    line 0x20202020636f6e73742063686172202a6765745f746f6b656e5f6e616d6528546f6b656e5479706520746b5f7479706529207b0a, --     const char *get_token_name(TokenType tk_type) {
    line 0x20202020202020202f2a7b6765745f746f6b656e5f6e616d655f66756e6374696f6e7d2a2f0a, --         /*{get_token_name_function}*/
    line 0x202020207d0a, --     }
    line 0x7d] -- }
  supplied := [line 0x6765745f746f6b656e5f6e616d655f66756e6374696f6e]
    -- get_token_name_function

/-- lapex-cpp-codegen/src/lexer/tokens.h.tpl, written with the substitutions of lapex-cpp-codegen/src/lexer/mod.rs:154-156 -/
def tokensHeaderTemplate : CppTemplate where
  text := List.flatten [
    line 0x23707261676d61206f6e63650a, -- #pragma once
    line 0x0a, --
    line 0x23696e636c756465203c63737464696e743e0a, -- #include <cstdint>
    line 0x0a, --
    line 0x6e616d657370616365206c657865720a, -- namespace lexer
    line 0x7b0a, -- {
    line 0x20202020656e756d20636c61737320546f6b656e54797065203a2075696e7433325f740a, --     enum class TokenType : uint32_t
    line 0x202020207b0a, --     {
    line 0x2020202020202020544b5f455252203d20302c0a, --         TK_ERR = 0,
    line 0x2020202020202020544b5f454f46203d20312c0a, --         TK_EOF = 1,
    line 0x20202020202020202f2a7b746f6b656e5f656e756d5f76617269616e74737d2a2f0a, --         /*{token_enum_variants}*/
    line 0x202020207d3b0a, --     };
    line 0x202020200a, --
    line 0x20202020636f6e73742063686172202a6765745f746f6b656e5f6e616d6528546f6b656e5479706520746b5f74797065293b0a, --     const char *get_token_name(TokenType tk_type);
    line 0x7d] -- }
  supplied := [line 0x746f6b656e5f656e756d5f76617269616e7473]
    -- token_enum_variants

/-- lapex-cpp-codegen/src/ll_parser/visitor.h.tpl, written with the substitutions of lapex-cpp-codegen/src/ll_parser/mod.rs:193-195 -/
def llVisitorHeaderTemplate : CppTemplate where
  text := List.flatten [
    line 0x23707261676d61206f6e63650a, -- #pragma once
    line 0x0a, --
    line 0x23696e636c7564652022746f6b656e732e68220a, -- #include "tokens.h"
    line 0x0a, --
    line 0x6e616d657370616365207061727365720a, -- namespace parser
    line 0x7b0a, -- {
    line 0x2020202074656d706c617465203c636c61737320543e0a, --     template <class T>
    line 0x20202020636c6173732056697369746f720a, --     class Visitor
    line 0x202020207b0a, --     {
    line 0x202020207075626c69633a0a, --     public:
    line 0x20202020202020207669727475616c20766f696420746f6b656e286c657865723a3a546f6b656e5479706520746b5f747970652c2054206461746129203d20303b0a, --         virtual void token(lexer::TokenType tk_type, T data) = 0;
    line 0x20202020202020202f2a7b76697369746f725f6d6574686f64737d2a2f0a, --         /*{visitor_methods}*/
    line 0x202020207d3b0a, --     };
    line 0x7d] -- }
  supplied := [line 0x76697369746f725f6d6574686f6473]
    -- visitor_methods

/-- lapex-cpp-codegen/src/ll_parser/parser.h.tpl, written with the substitutions of lapex-cpp-codegen/src/ll_parser/mod.rs:199 -/
def llHeaderTemplate : CppTemplate where
  text := List.flatten [
    line 0x23707261676d61206f6e63650a, -- #pragma once
    line 0x0a, --
    line 0x23696e636c7564652022746f6b656e732e68220a, -- #include "tokens.h"
    line 0x23696e636c756465202276697369746f722e68220a, -- #include "visitor.h"
    line 0x23696e636c756465203c66756e6374696f6e616c3e0a, -- #include <functional>
    line 0x23696e636c756465203c7574696c6974793e0a, -- #include <utility>
    line 0x0a, --
    line 0x6e616d657370616365207061727365720a, -- namespace parser
    line 0x7b0a, -- {
    line 0x0a, --
    line 0x2020202074656d706c617465203c636c61737320543e0a, --     template <class T>
    line 0x202020207573696e6720546f6b656e203d207374643a3a706169723c6c657865723a3a546f6b656e547970652c20543e3b0a, --     using Token = std::pair<lexer::TokenType, T>;
    line 0x0a, --
    line 0x2020202074656d706c617465203c636c61737320543e0a, --     template <class T>
    line 0x20202020636c617373205061727365720a, --     class Parser
    line 0x202020207b0a, --     {
    line 0x20202020707269766174653a0a, --     private:
    line 0x20202020202020207374643a3a66756e6374696f6e3c546f6b656e3c543e28293e20746f6b656e5f66756e6374696f6e3b0a, --         std::function<Token<T>()> token_function;
    line 0x202020202020202056697369746f723c543e202676697369746f723b0a, --         Visitor<T> &visitor;
    line 0x0a, --
    line 0x202020207075626c69633a0a, --     public:
    line 0x2020202020202020506172736572287374643a3a66756e6374696f6e3c546f6b656e3c543e28293e20746f6b656e5f66756e6374696f6e2c2056697369746f723c543e202676697369746f72293b0a, --         Parser(std::function<Token<T>()> token_function, Visitor<T> &visitor);
    line 0x0a, --
    line 0x2020202020202020766f696420706172736528293b0a, --         void parse();
    line 0x202020207d3b0a, --     };
    line 0x0a, --
    line 0x7d0a] -- }
  supplied := []

/-- lapex-cpp-codegen/src/ll_parser/parser_impl.h.tpl, written with the substitutions of lapex-cpp-codegen/src/ll_parser/mod.rs:209-225 -/
def llImplHeaderTemplate : CppTemplate where
  text := List.flatten [
    line 0x23707261676d61206f6e63650a, -- #pragma once
    line 0x0a, --
    line 0x23696e636c75646520227061727365722e68220a, -- #include "parser.h"
    line 0x23696e636c756465203c737461636b3e0a, -- #include <stack>
    line 0x23696e636c756465203c71756575653e0a, -- #include <queue>
    line 0x0a, --
    line 0x23696e636c756465203c696f73747265616d3e0a, -- #include <iostream>
    line 0x0a, --
    line 0x6e616d657370616365207061727365720a, -- namespace parser
    line 0x7b0a, -- {
    line 0x20202020656e756d20636c6173732053796d626f6c4b696e64203a2075696e74385f740a, --     enum class SymbolKind : uint8_t
    line 0x202020207b0a, --     {
    line 0x20202020202020205465726d696e616c2c0a, --         Terminal,
    line 0x20202020202020204e6f6e5465726d696e616c2c0a, --         NonTerminal,
    line 0x2020202020202020457869744e6f6e5465726d696e616c0a, --         ExitNonTerminal
    line 0x202020207d3b0a, --     };
    line 0x0a, --
    line 0x202020207374727563742053796d626f6c0a, --     struct Symbol
    line 0x202020207b0a, --     {
    line 0x202020202020202053796d626f6c4b696e64206b696e643b0a, --         SymbolKind kind;
    line 0x202020202020202075696e7433325f74206964656e7469666965723b0a, --         uint32_t identifier;
    line 0x202020207d3b0a, --     };
    line 0x202020200a, --
    line 0x20202020766f696420707573685f70726f64756374696f6e5f66726f6d5f7461626c652853796d626f6c206e6f6e5f7465726d696e616c2c206c657865723a3a546f6b656e54797065206c6f6f6b61686561642c207374643a3a737461636b3c53796d626f6c3e202670617273655f737461636b293b0a, --     void push_production_from_table(Symbol non_terminal, lexer::TokenType lookahead, std::stack<Symbol> &parse_stack);
    line 0x0a, --
    line 0x20202020766f6964207468726f775f756e65787065637465645f746f6b656e5f6572726f72286c657865723a3a546f6b656e547970652065787065637465642c206c657865723a3a546f6b656e5479706520676f74293b0a, --     void throw_unexpected_token_error(lexer::TokenType expected, lexer::TokenType got);
    line 0x202020200a, --
    line 0x20202020656e756d20636c617373204e6f6e5465726d696e616c54797065203a2075696e7433325f740a, --     enum class NonTerminalType : uint32_t
    line 0x202020207b0a, --     {
    line 0x20202020202020202f2a7b6e6f6e5f7465726d696e616c5f656e756d5f76617269616e74737d2a2f0a, --         /*{non_terminal_enum_variants}*/
    line 0x202020207d3b0a, --     };
    line 0x202020200a, --
    line 0x2020202074656d706c617465203c636c61737320543e0a, --     template <class T>
    line 0x20202020766f696420657869745f76697369746f722856697369746f723c543e262076697369746f722c204e6f6e5465726d696e616c54797065206e6f6e5f7465726d696e616c290a, --     void exit_visitor(Visitor<T>& visitor, NonTerminalType non_terminal)
    line 0x202020207b0a, --     {
    line 0x20202020202020202f2a7b76697369746f725f657869745f7377697463687d2a2f0a, --         /*{visitor_exit_switch}*/
    line 0x202020207d0a, --     }
    line 0x0a, --
    line 0x2020202074656d706c617465203c636c61737320543e0a, --     template <class T>
    line 0x20202020766f696420656e7465725f76697369746f722856697369746f723c543e262076697369746f722c204e6f6e5465726d696e616c54797065206e6f6e5f7465726d696e616c290a, --     void enter_visitor(Visitor<T>& visitor, NonTerminalType non_terminal)
    line 0x202020207b0a, --     {
    line 0x20202020202020202f2a7b76697369746f725f656e7465725f7377697463687d2a2f0a, --         /*{visitor_enter_switch}*/
    line 0x202020207d0a, --     }
    line 0x0a, --
    line 0x2020202074656d706c617465203c636c61737320543e0a, --     template <class T>
    line 0x202020205061727365723c543e3a3a506172736572287374643a3a66756e6374696f6e3c546f6b656e3c543e28293e20746f6b656e5f66756e6374696f6e2c2056697369746f723c543e202676697369746f7229203a20746f6b656e5f66756e6374696f6e28746f6b656e5f66756e6374696f6e292c2076697369746f722876697369746f7229207b7d0a, --     Parser<T>::Parser(std::function<Token<T>()> token_function, Visitor<T> &visitor) : token_function(token_function), visitor(visitor) {}
    line 0x0a, --
    line 0x2020202074656d706c617465203c636c61737320543e0a, --     template <class T>
    line 0x20202020766f6964205061727365723c543e3a3a706172736528290a, --     void Parser<T>::parse()
    line 0x202020207b0a, --     {
    line 0x20202020202020207374643a3a71756575653c7374643a3a706169723c6c657865723a3a546f6b656e547970652c20543e3e206c6f6f6b61686561643b0a, --         std::queue<std::pair<lexer::TokenType, T>> lookahead;
    line 0x20202020202020206c6f6f6b61686561642e7075736828746869732d3e746f6b656e5f66756e6374696f6e2829293b0a, --         lookahead.push(this->token_function());
    line 0x0a, --
    line 0x20202020202020207374643a3a737461636b3c53796d626f6c3e2070617273655f737461636b3b0a, --         std::stack<Symbol> parse_stack;
    line 0x202020202020202053796d626f6c20656e647b53796d626f6c4b696e643a3a5465726d696e616c2c207374617469635f636173743c75696e7433325f743e286c657865723a3a546f6b656e547970653a3a544b5f454f46297d3b0a, --         Symbol end{SymbolKind::Terminal, static_cast<uint32_t>(lexer::TokenType::TK_EOF)};
    line 0x202020202020202070617273655f737461636b2e7075736828656e64293b0a, --         parse_stack.push(end);
    line 0x202020202020202053796d626f6c20656e7472797b53796d626f6c4b696e643a3a4e6f6e5465726d696e616c2c207374617469635f636173743c75696e7433325f743e287b6772616d6d61725f656e7472795f6e6f6e5f7465726d696e616c7d297d3b0a, --         Symbol entry{SymbolKind::NonTerminal, static_cast<uint32_t>({grammar_entry_non_terminal})};
    line 0x202020202020202070617273655f737461636b2e7075736828656e747279293b0a, --         parse_stack.push(entry);
    line 0x0a, --
    line 0x20202020202020207768696c65202870617273655f737461636b2e73697a652829203e2030290a, --         while (parse_stack.size() > 0)
    line 0x20202020202020207b0a, --         {
    line 0x20202020202020202020202053796d626f6c2063757272656e74203d2070617273655f737461636b2e746f7028293b0a, --             Symbol current = parse_stack.top();
    line 0x20202020202020202020202070617273655f737461636b2e706f7028293b0a, --             parse_stack.pop();
    line 0x2020202020202020202020206175746f206c6f6f6b61686561645f746f6b656e5f616e645f64617461203d206c6f6f6b61686561642e66726f6e7428293b0a, --             auto lookahead_token_and_data = lookahead.front();
    line 0x2020202020202020202020206c657865723a3a546f6b656e54797065206c6f6f6b61686561645f746b203d206c6f6f6b61686561645f746f6b656e5f616e645f646174612e66697273743b0a, --             lexer::TokenType lookahead_tk = lookahead_token_and_data.first;
    line 0x2020202020202020202020206966202863757272656e742e6b696e64203d3d2053796d626f6c4b696e643a3a457869744e6f6e5465726d696e616c290a, --             if (current.kind == SymbolKind::ExitNonTerminal)
    line 0x2020202020202020202020207b0a, --             {
    line 0x20202020202020202020202020202020657869745f76697369746f7228746869732d3e76697369746f722c207374617469635f636173743c4e6f6e5465726d696e616c547970653e2863757272656e742e6964656e74696669657229293b0a, --                 exit_visitor(this->visitor, static_cast<NonTerminalType>(current.identifier));
    line 0x2020202020202020202020207d0a, --             }
    line 0x202020202020202020202020656c7365206966202863757272656e742e6b696e6420213d2053796d626f6c4b696e643a3a5465726d696e616c290a, --             else if (current.kind != SymbolKind::Terminal)
    line 0x2020202020202020202020207b0a, --             {
    line 0x2020202020202020202020202020202053796d626f6c206e745f657869745f73796d626f6c7b53796d626f6c4b696e643a3a457869744e6f6e5465726d696e616c2c2063757272656e742e6964656e7469666965727d3b0a, --                 Symbol nt_exit_symbol{SymbolKind::ExitNonTerminal, current.identifier};
    line 0x2020202020202020202020202020202070617273655f737461636b2e70757368286e745f657869745f73796d626f6c293b0a, --                 parse_stack.push(nt_exit_symbol);
    line 0x20202020202020202020202020202020707573685f70726f64756374696f6e5f66726f6d5f7461626c652863757272656e742c206c6f6f6b61686561645f746b2c2070617273655f737461636b293b0a, --                 push_production_from_table(current, lookahead_tk, parse_stack);
    line 0x20202020202020202020202020202020656e7465725f76697369746f7228746869732d3e76697369746f722c207374617469635f636173743c4e6f6e5465726d696e616c547970653e2863757272656e742e6964656e74696669657229293b0a, --                 enter_visitor(this->visitor, static_cast<NonTerminalType>(current.identifier));
    line 0x2020202020202020202020207d0a, --             }
    line 0x202020202020202020202020656c73650a, --             else
    line 0x2020202020202020202020207b0a, --             {
    line 0x202020202020202020202020202020206966202863757272656e742e6964656e74696669657220213d207374617469635f636173743c75696e7433325f743e286c6f6f6b61686561645f746b29290a, --                 if (current.identifier != static_cast<uint32_t>(lookahead_tk))
    line 0x202020202020202020202020202020207b0a, --                 {
    line 0x20202020202020202020202020202020202020207468726f775f756e65787065637465645f746f6b656e5f6572726f72287374617469635f636173743c6c657865723a3a546f6b656e547970653e2863757272656e742e6964656e746966696572292c206c6f6f6b61686561645f746b293b0a, --                     throw_unexpected_token_error(static_cast<lexer::TokenType>(current.identifier), lookahead_tk);
    line 0x202020202020202020202020202020207d0a, --                 }
    line 0x20202020202020202020202020202020746869732d3e76697369746f722e746f6b656e286c6f6f6b61686561645f746b2c206c6f6f6b61686561645f746f6b656e5f616e645f646174612e7365636f6e64293b0a, --                 this->visitor.token(lookahead_tk, lookahead_token_and_data.second);
    line 0x202020202020202020202020202020206c6f6f6b61686561642e706f7028293b0a, --                 lookahead.pop();
    line 0x202020202020202020202020202020206c6f6f6b61686561642e7075736828746869732d3e746f6b656e5f66756e6374696f6e2829293b0a, --                 lookahead.push(this->token_function());
    line 0x2020202020202020202020207d0a, --             }
    line 0x20202020202020207d0a, --         }
    line 0x202020207d0a, --     }
    line 0x7d0a] -- }
  supplied := [line 0x76697369746f725f656e7465725f737769746368,
    line 0x76697369746f725f657869745f737769746368,
    line 0x6772616d6d61725f656e7472795f6e6f6e5f7465726d696e616c,
    line 0x6e6f6e5f7465726d696e616c5f656e756d5f76617269616e7473]
    -- visitor_enter_switch
    -- visitor_exit_switch
    -- grammar_entry_non_terminal
    -- non_terminal_enum_variants

/-- lapex-cpp-codegen/src/ll_parser/parser.cpp.tpl, written with the substitutions of lapex-cpp-codegen/src/ll_parser/mod.rs:229-231 -/
def llImplTemplate : CppTemplate where
  text := List.flatten [
    line 0x23696e636c75646520227061727365725f696d706c2e68220a, -- #include "parser_impl.h"
    line 0x0a, --
    line 0x23696e636c756465203c7373747265616d3e0a, -- #include <sstream>
    line 0x0a, --
    line 0x6e616d65737061636520706172736572207b0a, -- namespace parser {
    line 0x20202020766f696420707573685f70726f64756374696f6e5f66726f6d5f7461626c652853796d626f6c206e6f6e5f7465726d696e616c2c206c657865723a3a546f6b656e54797065206c6f6f6b61686561642c207374643a3a737461636b3c53796d626f6c3e262070617273655f737461636b29207b0a, --     void push_production_from_table(Symbol non_terminal, lexer::TokenType lookahead, std::stack<Symbol>& parse_stack) {
    line 0x20202020202020202f2a7b7061727365725f7461626c655f7377697463687d2a2f0a, --         /*{parser_table_switch}*/
    line 0x202020207d0a, --     }
    line 0x0a, --
    line 0x0a, --
    line 0x20202020766f6964207468726f775f756e65787065637465645f746f6b656e5f6572726f72286c657865723a3a546f6b656e547970652065787065637465642c206c657865723a3a546f6b656e5479706520676f7429207b0a, --     void throw_unexpected_token_error(lexer::TokenType expected, lexer::TokenType got) {
    line 0x20202020202020207374643a3a6f737472696e6773747265616d206f733b0a, --         std::ostringstream os;
    line 0x20202020202020206f73203c3c2022556e657870656374656420746f6b656e202722203c3c206c657865723a3a6765745f746f6b656e5f6e616d6528676f7429203c3c2022272c20657870656374656420746f6b656e202722203c3c206c657865723a3a6765745f746f6b656e5f6e616d6528657870656374656429203c3c202227223b0a, --         os << "Unexpected token '" << lexer::get_token_name(got) << "', expected token '" << lexer::get_token_name(expected) << "'";
    line 0x20202020202020207468726f77207374643a3a72756e74696d655f6572726f72286f732e7374722829293b0a, --         throw std::runtime_error(os.str());
    line 0x202020207d0a, --     }
    line 0x7d] -- }
  supplied := [line 0x7061727365725f7461626c655f737769746368]
    -- parser_table_switch

/-- lapex-cpp-codegen/src/lr_parser/parser.h.tpl, written with the substitutions of lapex-cpp-codegen/src/lr_parser/mod.rs:87 -/
def lrHeaderTemplate : CppTemplate where
  text := List.flatten [
    line 0x23707261676d61206f6e63650a, -- #pragma once
    line 0x0a, --
    line 0x23696e636c7564652022746f6b656e732e68220a, -- #include "tokens.h"
    line 0x23696e636c756465202276697369746f722e68220a, -- #include "visitor.h"
    line 0x23696e636c756465203c66756e6374696f6e616c3e0a, -- #include <functional>
    line 0x23696e636c756465203c7574696c6974793e0a, -- #include <utility>
    line 0x0a, --
    line 0x6e616d657370616365207061727365720a, -- namespace parser
    line 0x7b0a, -- {
    line 0x0a, --
    line 0x2020202074656d706c617465203c636c61737320543e0a, --     template <class T>
    line 0x202020207573696e6720546f6b656e203d207374643a3a706169723c6c657865723a3a546f6b656e547970652c20543e3b0a, --     using Token = std::pair<lexer::TokenType, T>;
    line 0x0a, --
    line 0x2020202074656d706c617465203c636c61737320543e0a, --     template <class T>
    line 0x20202020636c617373205061727365720a, --     class Parser
    line 0x202020207b0a, --     {
    line 0x20202020707269766174653a0a, --     private:
    line 0x20202020202020207374643a3a66756e6374696f6e3c546f6b656e3c543e28293e20746f6b656e5f66756e6374696f6e3b0a, --         std::function<Token<T>()> token_function;
    line 0x202020202020202056697369746f723c543e202676697369746f723b0a, --         Visitor<T> &visitor;
    line 0x0a, --
    line 0x202020207075626c69633a0a, --     public:
    line 0x2020202020202020506172736572287374643a3a66756e6374696f6e3c546f6b656e3c543e28293e20746f6b656e5f66756e6374696f6e2c2056697369746f723c543e202676697369746f72293b0a, --         Parser(std::function<Token<T>()> token_function, Visitor<T> &visitor);
    line 0x0a, --
    line 0x2020202020202020766f696420706172736528293b0a, --         void parse();
    line 0x202020207d3b0a, --     };
    line 0x0a, --
    line 0x7d0a] -- }
  supplied := []

/-- lapex-cpp-codegen/src/lr_parser/parser.cpp.tpl, written with the substitutions of lapex-cpp-codegen/src/lr_parser/mod.rs:163-167 -/
def lrImplTemplate : CppTemplate where
  text := List.flatten [
    line 0x23696e636c75646520227061727365725f696d706c2e68220a, -- #include "parser_impl.h"
    line 0x0a, --
    line 0x23696e636c756465203c7373747265616d3e0a, -- #include <sstream>
    line 0x0a, --
    line 0x6e616d657370616365207061727365720a, -- namespace parser
    line 0x7b0a, -- {
    line 0x20202020766f6964207468726f775f756e65787065637465645f746f6b656e5f6572726f7228636f6e737420636861722a2065787065637465642c206c657865723a3a546f6b656e5479706520676f7429207b0a, --     void throw_unexpected_token_error(const char* expected, lexer::TokenType got) {
    line 0x20202020202020207374643a3a6f737472696e6773747265616d206f733b0a, --         std::ostringstream os;
    line 0x20202020202020206f73203c3c2022556e657870656374656420746f6b656e202722203c3c206c657865723a3a6765745f746f6b656e5f6e616d6528676f7429203c3c2022272c206578706563746564206f6e65206f663a2022203c3c2065787065637465643b0a, --         os << "Unexpected token '" << lexer::get_token_name(got) << "', expected one of: " << expected;
    line 0x20202020202020207468726f77207374643a3a72756e74696d655f6572726f72286f732e7374722829293b0a, --         throw std::runtime_error(os.str());
    line 0x202020207d0a, --     }
    line 0x0a, --
    line 0x20202020416374696f6e2064657465726d696e655f616374696f6e2875696e7433325f742073746174652c20636f6e7374206c657865723a3a546f6b656e5479706520266c6f6f6b61686561645f746f6b656e290a, --     Action determine_action(uint32_t state, const lexer::TokenType &lookahead_token)
    line 0x202020207b0a, --     {
    line 0x20202020202020202f2a7b616374696f6e5f7461626c657d2a2f0a, --         /*{action_table}*/
    line 0x202020207d0a, --     }
    line 0x0a, --
    line 0x20202020766f6964207265647563655f737461636b2875696e7433325f742072756c652c207374643a3a766563746f723c53796d626f6c3e202670617273655f737461636b2c207374643a3a766563746f723c53796d626f6c3e20267265765f726564756365645f73796d626f6c73290a, --     void reduce_stack(uint32_t rule, std::vector<Symbol> &parse_stack, std::vector<Symbol> &rev_reduced_symbols)
    line 0x202020207b0a, --     {
    line 0x20202020202020202f2a7b737461636b5f7265647563655f7461626c657d2a2f0a, --         /*{stack_reduce_table}*/
    line 0x202020207d0a, --     }
    line 0x0a, --
    line 0x202020205472616e736974696f6e2072657472696576655f6e6578745f73746174652875696e7433325f742073746174652c20636f6e73742053796d626f6c202663757272656e745f73796d626f6c290a, --     Transition retrieve_next_state(uint32_t state, const Symbol &current_symbol)
    line 0x202020207b0a, --     {
    line 0x20202020202020202f2a7b676f746f5f7461626c657d2a2f0a, --         /*{goto_table}*/
    line 0x202020207d0a, --     }
    line 0x7d] -- }
  supplied := [line 0x616374696f6e5f7461626c65,
    line 0x676f746f5f7461626c65,
    line 0x737461636b5f7265647563655f7461626c65]
    -- action_table
    -- goto_table
    -- stack_reduce_table

/-- lapex-cpp-codegen/src/lr_parser/parser_impl.h.tpl, written with the substitutions of lapex-cpp-codegen/src/lr_parser/mod.rs:204-215 -/
def lrImplHeaderTemplate : CppTemplate where
  text := List.flatten [
    line 0x23707261676d61206f6e63650a, -- #pragma once
    line 0x0a, --
    line 0x23696e636c75646520227061727365722e68220a, -- #include "parser.h"
    line 0x23696e636c756465203c71756575653e0a, -- #include <queue>
    line 0x23696e636c756465203c766563746f723e0a, -- #include <vector>
    line 0x0a, --
    line 0x23696e636c756465203c696f73747265616d3e0a, -- #include <iostream>
    line 0x0a, --
    line 0x6e616d657370616365207061727365720a, -- namespace parser
    line 0x7b0a, -- {
    line 0x20202020656e756d20636c6173732053796d626f6c4b696e64203a2075696e74385f740a, --     enum class SymbolKind : uint8_t
    line 0x202020207b0a, --     {
    line 0x20202020202020205465726d696e616c2c0a, --         Terminal,
    line 0x20202020202020204e6f6e5465726d696e616c2c0a, --         NonTerminal,
    line 0x202020202020202053746174650a, --         State
    line 0x202020207d3b0a, --     };
    line 0x0a, --
    line 0x202020207374727563742053796d626f6c0a, --     struct Symbol
    line 0x202020207b0a, --     {
    line 0x202020202020202053796d626f6c4b696e64206b696e643b0a, --         SymbolKind kind;
    line 0x202020202020202075696e7433325f74206964656e7469666965723b0a, --         uint32_t identifier;
    line 0x202020207d3b0a, --     };
    line 0x0a, --
    line 0x20202020656e756d20636c617373204e6f6e5465726d696e616c54797065203a2075696e7433325f740a, --     enum class NonTerminalType : uint32_t
    line 0x202020207b0a, --     {
    line 0x20202020202020202f2a7b6e6f6e5f7465726d696e616c5f656e756d5f76617269616e74737d2a2f0a, --         /*{non_terminal_enum_variants}*/
    line 0x202020207d3b0a, --     };
    line 0x0a, --
    line 0x20202020656e756d20636c61737320416374696f6e54797065203a2075696e74385f740a, --     enum class ActionType : uint8_t
    line 0x202020207b0a, --     {
    line 0x202020202020202053686966742c0a, --         Shift,
    line 0x20202020202020205265647563652c0a, --         Reduce,
    line 0x202020207d3b0a, --     };
    line 0x0a, --
    line 0x2020202073747275637420416374696f6e0a, --     struct Action
    line 0x202020207b0a, --     {
    line 0x2020202020202020416374696f6e5479706520616374696f6e5f747970653b0a, --         ActionType action_type;
    line 0x202020202020202075696e7431365f7420726564756365645f72756c653b0a, --         uint16_t reduced_rule;
    line 0x202020207d3b0a, --     };
    line 0x0a, --
    line 0x20202020737472756374205472616e736974696f6e0a, --     struct Transition
    line 0x202020207b0a, --     {
    line 0x202020202020202075696e7433325f74206e6578745f73746174653b0a, --         uint32_t next_state;
    line 0x2020202020202020626f6f6c2069735f616363657074696e673b0a, --         bool is_accepting;
    line 0x202020207d3b0a, --     };
    line 0x0a, --
    line 0x20202020416374696f6e2064657465726d696e655f616374696f6e2875696e7433325f742073746174652c20636f6e7374206c657865723a3a546f6b656e5479706520266c6f6f6b61686561645f74706b656e293b0a, --     Action determine_action(uint32_t state, const lexer::TokenType &lookahead_tpken);
    line 0x0a, --
    line 0x20202020766f6964207265647563655f737461636b2875696e7433325f742072756c652c207374643a3a766563746f723c53796d626f6c3e202670617273655f737461636b2c207374643a3a766563746f723c53796d626f6c3e20267265765f726564756365645f73796d626f6c73293b0a, --     void reduce_stack(uint32_t rule, std::vector<Symbol> &parse_stack, std::vector<Symbol> &rev_reduced_symbols);
    line 0x0a, --
    line 0x202020205472616e736974696f6e2072657472696576655f6e6578745f73746174652875696e7433325f742073746174652c20636f6e73742053796d626f6c202663757272656e745f73796d626f6c293b0a, --     Transition retrieve_next_state(uint32_t state, const Symbol &current_symbol);
    line 0x0a, --
    line 0x2020202074656d706c617465203c636c61737320543e0a, --     template <class T>
    line 0x20202020766f6964207265647563655f76697369746f722856697369746f723c543e202676697369746f722c20636f6e7374207374643a3a766563746f723c53796d626f6c3e20267265765f726564756365645f73796d626f6c732c2075696e7433325f742072756c65290a, --     void reduce_visitor(Visitor<T> &visitor, const std::vector<Symbol> &rev_reduced_symbols, uint32_t rule)
    line 0x202020207b0a, --     {
    line 0x20202020202020202f2a7b76697369746f725f7265647563655f7377697463687d2a2f0a, --         /*{visitor_reduce_switch}*/
    line 0x202020207d0a, --     }
    line 0x0a, --
    line 0x2020202074656d706c617465203c636c61737320543e0a, --     template <class T>
    line 0x202020205061727365723c543e3a3a506172736572287374643a3a66756e6374696f6e3c546f6b656e3c543e28293e20746f6b656e5f66756e6374696f6e2c2056697369746f723c543e202676697369746f7229203a20746f6b656e5f66756e6374696f6e28746f6b656e5f66756e6374696f6e292c2076697369746f722876697369746f7229207b7d0a, --     Parser<T>::Parser(std::function<Token<T>()> token_function, Visitor<T> &visitor) : token_function(token_function), visitor(visitor) {}
    line 0x0a, --
    line 0x2020202074656d706c617465203c636c61737320543e0a, --     template <class T>
    line 0x20202020766f6964205061727365723c543e3a3a706172736528290a, --     void Parser<T>::parse()
    line 0x202020207b0a, --     {
    line 0x20202020202020207374643a3a71756575653c7374643a3a706169723c6c657865723a3a546f6b656e547970652c20543e3e206c6f6f6b61686561643b0a, --         std::queue<std::pair<lexer::TokenType, T>> lookahead;
    line 0x20202020202020206c6f6f6b61686561642e7075736828746869732d3e746f6b656e5f66756e6374696f6e2829293b0a, --         lookahead.push(this->token_function());
    line 0x0a, --
    line 0x20202020202020207374643a3a766563746f723c53796d626f6c3e2070617273655f737461636b3b0a, --         std::vector<Symbol> parse_stack;
    line 0x202020202020202053796d626f6c20656e7472795f73796d626f6c7b53796d626f6c4b696e643a3a53746174652c207374617469635f636173743c75696e7433325f743e282f2a7b656e7472795f73746174657d2a2f297d3b0a, --         Symbol entry_symbol{SymbolKind::State, static_cast<uint32_t>(/*{entry_state}*/)};
    line 0x202020202020202070617273655f737461636b2e707573685f6261636b28656e7472795f73796d626f6c293b0a, --         parse_stack.push_back(entry_symbol);
    line 0x0a, --
    line 0x20202020202020207768696c65202870617273655f737461636b2e73697a652829203e2030290a, --         while (parse_stack.size() > 0)
    line 0x20202020202020207b0a, --         {
    line 0x2020202020202020202020206175746f206e6578745f746f6b656e5f616e645f64617461203d206c6f6f6b61686561642e66726f6e7428293b0a, --             auto next_token_and_data = lookahead.front();
    line 0x2020202020202020202020206c657865723a3a546f6b656e54797065206e6578745f746b203d206e6578745f746f6b656e5f616e645f646174612e66697273743b0a, --             lexer::TokenType next_tk = next_token_and_data.first;
    line 0x20202020202020202020202053796d626f6c206e6578745f73796d626f6c7b53796d626f6c4b696e643a3a5465726d696e616c2c207374617469635f636173743c75696e7433325f743e286e6578745f746b297d3b0a, --             Symbol next_symbol{SymbolKind::Terminal, static_cast<uint32_t>(next_tk)};
    line 0x0a, --
    line 0x20202020202020202020202075696e7433325f74207374617465203d2070617273655f737461636b2e6261636b28292e6964656e7469666965723b0a, --             uint32_t state = parse_stack.back().identifier;
    line 0x202020202020202020202020416374696f6e20616374696f6e203d2064657465726d696e655f616374696f6e2873746174652c206e6578745f746b293b0a, --             Action action = determine_action(state, next_tk);
    line 0x20202020202020202020202069662028616374696f6e2e616374696f6e5f74797065203d3d20416374696f6e547970653a3a5368696674290a, --             if (action.action_type == ActionType::Shift)
    line 0x2020202020202020202020207b0a, --             {
    line 0x2020202020202020202020202020202070617273655f737461636b2e707573685f6261636b286e6578745f73796d626f6c293b0a, --                 parse_stack.push_back(next_symbol);
    line 0x0a, --
    line 0x20202020202020202020202020202020746869732d3e76697369746f722e7368696674286e6578745f746b2c206e6578745f746f6b656e5f616e645f646174612e7365636f6e64293b0a, --                 this->visitor.shift(next_tk, next_token_and_data.second);
    line 0x202020202020202020202020202020206c6f6f6b61686561642e706f7028293b0a, --                 lookahead.pop();
    line 0x202020202020202020202020202020206c6f6f6b61686561642e7075736828746869732d3e746f6b656e5f66756e6374696f6e2829293b0a, --                 lookahead.push(this->token_function());
    line 0x2020202020202020202020207d0a, --             }
    line 0x202020202020202020202020656c73652069662028616374696f6e2e616374696f6e5f74797065203d3d20416374696f6e547970653a3a526564756365290a, --             else if (action.action_type == ActionType::Reduce)
    line 0x2020202020202020202020207b0a, --             {
    line 0x202020202020202020202020202020207374643a3a766563746f723c53796d626f6c3e207265765f726564756365645f73796d626f6c733b0a, --                 std::vector<Symbol> rev_reduced_symbols;
    line 0x202020202020202020202020202020207265647563655f737461636b28616374696f6e2e726564756365645f72756c652c2070617273655f737461636b2c207265765f726564756365645f73796d626f6c73293b0a, --                 reduce_stack(action.reduced_rule, parse_stack, rev_reduced_symbols);
    line 0x202020202020202020202020202020207265647563655f76697369746f7228746869732d3e76697369746f722c207265765f726564756365645f73796d626f6c732c20616374696f6e2e726564756365645f72756c65293b0a, --                 reduce_visitor(this->visitor, rev_reduced_symbols, action.reduced_rule);
    line 0x2020202020202020202020207d0a, --             }
    line 0x20202020202020202020202053796d626f6c2063757272656e745f73796d626f6c203d2070617273655f737461636b2e6261636b28293b0a, --             Symbol current_symbol = parse_stack.back();
    line 0x20202020202020202020202075696e7433325f7420737461636b5f7374617465203d2070617273655f737461636b2e61742870617273655f737461636b2e73697a652829202d2032292e6964656e7469666965723b0a, --             uint32_t stack_state = parse_stack.at(parse_stack.size() - 2).identifier;
    line 0x2020202020202020202020205472616e736974696f6e207472616e736974696f6e203d2072657472696576655f6e6578745f737461746528737461636b5f73746174652c2063757272656e745f73796d626f6c293b0a, --             Transition transition = retrieve_next_state(stack_state, current_symbol);
    line 0x202020202020202020202020696620287472616e736974696f6e2e69735f616363657074696e67290a, --             if (transition.is_accepting)
    line 0x2020202020202020202020207b0a, --             {
    line 0x2020202020202020202020202020202070617273655f737461636b2e706f705f6261636b28293b0a, --                 parse_stack.pop_back();
    line 0x2020202020202020202020202020202070617273655f737461636b2e706f705f6261636b28293b0a, --                 parse_stack.pop_back();
    line 0x2020202020202020202020207d0a, --             }
    line 0x202020202020202020202020656c73650a, --             else
    line 0x2020202020202020202020207b0a, --             {
    line 0x2020202020202020202020202020202053796d626f6c206e6578745f73746174655f73796d626f6c7b53796d626f6c4b696e643a3a53746174652c207472616e736974696f6e2e6e6578745f73746174657d3b0a, --                 Symbol next_state_symbol{SymbolKind::State, transition.next_state};
    line 0x2020202020202020202020202020202070617273655f737461636b2e707573685f6261636b286e6578745f73746174655f73796d626f6c293b0a, --                 parse_stack.push_back(next_state_symbol);
    line 0x2020202020202020202020207d0a, --             }
    line 0x20202020202020207d0a, --         }
    line 0x202020207d0a, --     }
    line 0x7d0a] -- }
  supplied := [line 0x6e6f6e5f7465726d696e616c5f656e756d5f76617269616e7473,
    line 0x76697369746f725f7265647563655f737769746368,
    line 0x656e7472795f7374617465]
    -- non_terminal_enum_variants
    -- visitor_reduce_switch
    -- entry_state

/-- lapex-cpp-codegen/src/lr_parser/visitor.h.tpl, written with the substitutions of lapex-cpp-codegen/src/lr_parser/mod.rs:219-221 -/
def lrVisitorHeaderTemplate : CppTemplate where
  text := List.flatten [
    line 0x23707261676d61206f6e63650a, -- #pragma once
    line 0x0a, --
    line 0x23696e636c7564652022746f6b656e732e68220a, -- #include "tokens.h"
    line 0x0a, --
    line 0x6e616d657370616365207061727365720a, -- namespace parser
    line 0x7b0a, -- {
    line 0x2020202074656d706c617465203c636c61737320543e0a, --     template <class T>
    line 0x20202020636c6173732056697369746f720a, --     class Visitor
    line 0x202020207b0a, --     {
    line 0x202020207075626c69633a0a, --     public:
    line 0x20202020202020207669727475616c20766f6964207368696674286c657865723a3a546f6b656e5479706520746b5f747970652c2054206461746129203d20303b0a, --         virtual void shift(lexer::TokenType tk_type, T data) = 0;
    line 0x20202020202020202f2a7b76697369746f725f6d6574686f64737d2a2f0a, --         /*{visitor_methods}*/
    line 0x202020207d3b0a, --     };
    line 0x7d] -- }
  supplied := [line 0x76697369746f725f6d6574686f6473]
    -- visitor_methods

/-- all templates of the C++ code generator -/
def cppTemplates : List CppTemplate :=
  [lexerHeaderTemplate, lexerImplTemplate, tokensImplTemplate, tokensHeaderTemplate, llVisitorHeaderTemplate, llHeaderTemplate, llImplHeaderTemplate, llImplTemplate, lrHeaderTemplate, lrImplTemplate, lrImplHeaderTemplate, lrVisitorHeaderTemplate]

end Verif
