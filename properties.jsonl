{"id": "C01", "title": "Decoding an encoded instruction gives it back", "statement": "For every instruction whose operands are in range, decoding its encoding, even followed by arbitrary further bytes, yields exactly that instruction.", "quantifier": "every instruction form, every in-range operand value, every trailing byte string", "why_tests_cant": "2^20+ operand combinations times unbounded trailing bytes; the generated decoder is an ordered list of guarded arms and one shadowed arm breaks a single corner", "anchors": ["src/instruction.rs:Instr::encode", "src/instruction.rs:Instr::decode", "waterbear-instruction-derive/src/lib.rs:instruction_derive"]}
{"id": "C02", "title": "Encoding a decoded instruction reproduces the bytes", "statement": "Whenever decoding a byte string succeeds, encoding the decoded instruction gives exactly the first size() bytes of that string.", "quantifier": "every byte string", "why_tests_cant": "every byte string of every length; sampled bytes miss bit-field permutations that only show on some operand bits", "anchors": ["src/instruction.rs:Instr::decode", "src/instruction.rs:Instr::encode", "waterbear-instruction-derive/src/lib.rs:ranges_to_extractors"]}
{"id": "C03", "title": "Instruction size is the encoded length", "statement": "For every instruction, size() equals the number of bytes encode() produces, lies between 1 and 3, and is unchanged by evaluating the operands.", "quantifier": "every instruction and environment", "why_tests_cant": "all instructions times all operand values and environments; the assembler lays out code from size() before encode() ever runs", "anchors": ["src/instruction.rs:Instr::eval", "waterbear-instruction-derive/src/lib.rs:instruction_derive"]}
{"id": "C04", "title": "Decoding is total on complete input", "statement": "Decoding a non-empty byte string never panics, and fails only if the string is shorter than the instruction its first byte selects; every first byte selects exactly one form.", "quantifier": "every non-empty byte string", "why_tests_cant": "the claim is about all 256 opcodes and all truncations at once, plus uniqueness of the matching form", "anchors": ["src/instruction.rs:Instr::decode", "waterbear-instruction-derive/src/lib.rs:all_possible_opcodes"]}
{"id": "C05", "title": "Encodings follow the documented bit patterns", "statement": "For every documented form, the bytes produced by encode() are the bits of the pattern in docs/instructions.md with the operand bits in the documented places.", "quantifier": "every form and every in-range operand", "why_tests_cant": "bit layouts are per operand bit; a swapped bit is visible only for operands where the two bits differ", "anchors": ["src/instruction.rs:Instr", "waterbear-instruction-derive/src/lib.rs:parse_bit_pattern", "docs/instructions.md"]}
{"id": "C06", "title": "Operands are never silently truncated", "statement": "Evaluating an instruction succeeds only if every operand value fits its field (3, 8, 9, 12, 16 bits as documented); otherwise an out-of-range error is reported and no bytes are produced.", "quantifier": "every instruction, environment and position", "why_tests_cant": "the boundary must hold for every one of ~70 forms and every 32-bit value, including negatives", "anchors": ["src/instruction.rs:eval", "src/instruction.rs:eval8", "src/instruction.rs:eval9", "src/instruction.rs:eval12", "src/instruction.rs:eval16"]}
{"id": "C07", "title": "Short relative branches reach their target", "statement": "If a short branch (br, bz, bnz, bp, bpc, bn, dbnz, be, bne) at address p assembles, then a CPU that adds the sign-extended offset byte to the address of the next instruction lands on the operand's value; it is rejected exactly when the target is not a 16-bit address or the distance is outside -128..127.", "quantifier": "every short branch form, position and target", "why_tests_cant": "positions and targets are unbounded and the off-by-instruction-size bug is per form", "anchors": ["src/instruction.rs:rel8", "src/instruction.rs:Instr::eval"]}
{"id": "C08", "title": "Long relative branches reach their target", "statement": "If brf or callr at address p assembles, then the CPU rule of docs/instructions.md (next instruction address minus one plus the little-endian offset, modulo 65536) lands on the operand's value modulo 65536.", "quantifier": "every position and target", "why_tests_cant": "off-by-one and byte-order errors cancel on symmetric samples; needs all positions and targets", "anchors": ["src/instruction.rs:rel16", "src/instruction.rs:Instr::eval"]}
{"id": "C09", "title": "Absolute 12-bit jumps reach their target", "statement": "If jmp or call at address p assembles for target t, then replacing the low 12 bits of the next instruction's address by the encoded field gives t; targets in another 4 KiB page are rejected.", "quantifier": "every position and target", "why_tests_cant": "page-boundary behaviour depends on the pair (position, target) over an unbounded range", "anchors": ["src/instruction.rs:eval12", "src/instruction.rs:Instr::eval"]}
{"id": "C10", "title": "Expressions evaluate to their mathematical value", "statement": "Evaluating an expression whose intermediate results fit in 32 bits returns the mathematical value of the expression tree (truncating division, byte selectors, bitwise operators on two's complement).", "quantifier": "every expression tree and environment", "why_tests_cant": "expression trees are unbounded in depth and names range over every environment", "anchors": ["src/expression.rs:Expr::eval"]}
{"id": "C11", "title": "Expression evaluation fails only for a stated reason", "statement": "Evaluation returns an error only if a name is unbound, a divisor is zero or an unexpanded macro construct is reached, and the error is that of the leftmost failing operand; otherwise it returns a value or stops on 32-bit overflow.", "quantifier": "every expression tree and environment", "why_tests_cant": "error precedence over unbounded trees", "anchors": ["src/expression.rs:Expr::eval"]}
{"id": "C12", "title": "Expression evaluation depends only on the names that occur", "statement": "Two environments that agree on the names occurring in an expression give the same result.", "quantifier": "every expression and pair of environments", "why_tests_cant": "quantifies over pairs of environments", "anchors": ["src/expression.rs:Expr::eval", "src/env.rs:Env::get"]}
{"id": "C13", "title": "Operator precedence and associativity", "statement": "Parsing the tokens of an expression written with minimal parentheses according to the documented precedences (unary, then * /, then + -, then & | ^, all left associative) yields exactly the intended tree and stops right after it.", "quantifier": "every expression tree and every following token that cannot continue it", "why_tests_cant": "unbounded nesting of all operator combinations", "anchors": ["src/parser.rs:ExprParser::parse", "src/parser.rs:Precedence"]}
{"id": "C14", "title": "The expression parser accepts only the grammar", "statement": "Whenever expression parsing succeeds, the tokens consumed form a sentence of the documented precedence grammar for the returned tree, and the remaining tokens are an untouched suffix.", "quantifier": "every token sequence", "why_tests_cant": "all token sequences, including malformed ones", "anchors": ["src/parser.rs:ExprParser::parse"]}
{"id": "C15", "title": "Printed expressions read back", "statement": "Printing an expression and re-reading the printed text gives an expression with the same value in every environment (non-negative literals, non-octal radix).", "quantifier": "every expression tree with printable literals", "why_tests_cant": "unbounded trees and literal values; parenthesisation errors only show under specific nesting", "anchors": ["src/expression.rs:Display for Expr", "src/lexer.rs:lex_input", "src/parser.rs:ExprParser::parse"]}
{"id": "C16", "title": "A label denotes the address where the next byte goes", "statement": "In a successful assembly, every label's value is the output position reached by the statements before it.", "quantifier": "every program", "why_tests_cant": "every program shape; addresses depend on the sizes of all earlier statements", "anchors": ["src/asm.rs:compute_labels", "src/asm.rs:generate_bytes"]}
{"id": "C17", "title": "Both passes agree on positions", "statement": "While emitting bytes, the position of each statement is the position computed for it in the label pass.", "quantifier": "every program", "why_tests_cant": "disagreement would need a particular statement kind in a particular place; must hold for all programs", "anchors": ["src/asm.rs:compute_labels", "src/asm.rs:generate_bytes", "src/ast.rs:Directive::size"]}
{"id": "C18", "title": "Duplicate names are rejected", "statement": "A program that defines the same label or variable name twice in one scope is rejected with a duplicate-name error, and a program without duplicates is never rejected for that reason.", "quantifier": "every program", "why_tests_cant": "pairs of definitions at any distance, in any order", "anchors": ["src/asm.rs:add_name", "src/asm.rs:compute_labels", "src/asm.rs:compute_names"]}
{"id": "C19", "title": "Local labels are scoped to their global label", "statement": "A dotted name used in an instruction or data directive resolves only to local labels defined under the same global label; equal local names under different global labels do not interfere.", "quantifier": "every program", "why_tests_cant": "scoping is a property of all pairs of definitions and uses", "anchors": ["src/asm.rs:compute_labels", "src/env.rs:NamesEnv::get"]}
{"id": "C20", "title": "Names are case-insensitive", "statement": "Changing the ASCII case of identifiers anywhere in the source text does not change the assembled bytes or the outcome.", "quantifier": "every source text and every recasing of it", "why_tests_cant": "every recasing of every text", "anchors": ["src/lexer.rs:read_token", "src/asm.rs:add_name"]}
{"id": "C21", "title": "Output length", "statement": "The output length is the largest position reached by any statement, counting forward .org moves and padding.", "quantifier": "every program", "why_tests_cant": "depends on the maximum over all prefixes of the program", "anchors": ["src/asm.rs:generate_bytes"]}
{"id": "C22", "title": "Bytes not written are zero, and later statements win", "statement": "Each output byte equals the byte produced by the last statement covering that position, or zero if none covers it.", "quantifier": "every program and output index", "why_tests_cant": "overlaps created by .org are unbounded", "anchors": ["src/asm.rs:generate_bytes"]}
{"id": "C23", "title": "Assembling never writes outside the output buffer", "statement": "For every program laid out below 2 GiB (and, in an overflow-checked build, without a .cnop a,0 that moves backwards), byte generation never indexes outside the output and assembling never panics other than by 32-bit overflow in one of the program's expressions.", "quantifier": "every program", "why_tests_cant": "absence of a panic over all programs", "anchors": ["src/asm.rs:generate_bytes", "src/ast.rs:Directive::size"]}
{"id": "C24", "title": ".byte semantics", "statement": "Each .byte value must be in -128..255 and is emitted as that value modulo 256, strings verbatim, in order; the directive's size is the number of bytes emitted; any other value is rejected.", "quantifier": "every .byte argument list and environment", "why_tests_cant": "argument lists of any length and all 32-bit values", "anchors": ["src/asm.rs:generate_bytes", "src/ast.rs:Directive::size"]}
{"id": "C25", "title": ".word semantics", "statement": "Each .word value must be in -32768..65535 and is emitted modulo 65536 as two little-endian bytes, in order, with size two per value; any other value is rejected.", "quantifier": "every .word argument list and environment", "why_tests_cant": "argument lists of any length and all 32-bit values", "anchors": ["src/asm.rs:generate_bytes", "src/ast.rs:Directive::size"]}
{"id": "C26", "title": ".text and .string semantics", "statement": ".text n pads the string with spaces and .string n with nul bytes to exactly n bytes; a string longer than n is rejected.", "quantifier": "every length and string", "why_tests_cant": "all lengths, strings", "anchors": ["src/asm.rs:generate_bytes"]}
{"id": "C27", "title": ".cnop alignment", "statement": "For a positive multiple and non-negative addend, .cnop a,m moves the position to a plus the smallest multiple of m not below the current position. The search for that multiple always ends in an overflow-checked build; in an unchecked build it runs for ever exactly if m is not 0 and the position is above 2^31 minus the greatest power of two that divides m.", "quantifier": "every position, addend and 32-bit multiple, every build", "why_tests_cant": "all positions and multiples", "anchors": ["src/ast.rs:Directive::eval_cnop"]}
{"id": "C28", "title": "Layout-neutral statements emit nothing", "statement": "Inserting comments, local labels or variable definitions whose names are fresh and unused anywhere leaves the outcome unchanged. (A fresh global label opens a new scope for local labels, so it is not neutral.)", "quantifier": "every program, insertion point and inserted statement", "why_tests_cant": "all insertion points in all programs", "anchors": ["src/asm.rs:generate_bytes", "src/asm.rs:compute_labels"]}
{"id": "C29", "title": "Variables are resolved in order of definition", "statement": "A name = expr or name equ expr definition sees all labels and the variables defined before it, and its value is its expression's value in that environment; using a later variable is an unknown-name error.", "quantifier": "every program", "why_tests_cant": "all orders of definitions", "anchors": ["src/asm.rs:compute_names"]}
{"id": "C30", "title": "Assembly is deterministic in hash order and total", "statement": "For macro-free programs assembly terminates: always in an overflow-checked build, and for every program laid out below 2 GiB in an unchecked build, and for every program whose .cnop multiples are odd or 0. Its result does not depend on hash map iteration order.", "quantifier": "every program", "why_tests_cant": "iteration order and termination are not testable", "anchors": ["src/asm.rs:assemble"]}
{"id": "C31", "title": "Macro expansion substitutes arguments", "statement": "Expanding a call to a macro, whose arguments do not themselves use macro parameters, produces the macro's body with every parameter replaced by the corresponding argument, in body order, through any nesting of calls.", "quantifier": "every macro, call and argument list", "why_tests_cant": "all macro bodies and arguments", "anchors": ["src/asm.rs:expand", "src/asm.rs:replace_args", "src/expression.rs:replace_macro_args"]}
{"id": "C32", "title": "Macro labels are hygienic", "statement": "Labels ending in % get a name that is unique to each invocation, so two invocations never define the same name, and within one invocation definition and uses agree.", "quantifier": "every program and number of invocations", "why_tests_cant": "collisions need particular histories of expansions", "anchors": ["src/asm.rs:gen_labels", "src/asm.rs:expand"]}
{"id": "C33", "title": "Expansion leaves no macro constructs", "statement": "A successful expansion contains no macro calls; if macro parameters and macro labels are used only inside macro definitions, none is left in the expansion, and evaluating it never fails for that reason.", "quantifier": "every program", "why_tests_cant": "all nesting depths of macro calls", "anchors": ["src/asm.rs:expand_macros", "src/asm.rs:expand"]}
{"id": "C34", "title": "Programs without macros are unchanged by expansion", "statement": "Expanding a program without macro calls returns the same statements.", "quantifier": "every program without macro calls", "why_tests_cant": "all such programs", "anchors": ["src/asm.rs:expand_macros"]}
{"id": "C35", "title": "Macros are selected by name and argument count", "statement": "A call expands the macro with that exact name and arity, and a call with no such macro is an error.", "quantifier": "every macro table and call", "why_tests_cant": "all macro tables", "anchors": ["src/asm.rs:expand", "src/ast.rs:MacroIdentifier"]}
{"id": "C36", "title": "Expansion terminates for non-recursive macros", "statement": "If no macro reaches itself through calls in macro bodies, and calls outside macros do not use macro parameters, expansion finishes; with recursion it never succeeds, and with direct recursion it does not finish.", "quantifier": "every acyclic macro table and program", "why_tests_cant": "termination", "anchors": ["src/asm.rs:expand"]}
{"id": "C37", "title": "Lexing terminates and makes progress", "statement": "On text without combining characters the lexer always stops, and each token it returns consumes at least one character.", "quantifier": "every text without combining characters", "why_tests_cant": "termination on all inputs; a zero-length match loops forever", "anchors": ["src/lexer.rs:lex_for_ws", "src/input.rs:Input::update"]}
{"id": "C38", "title": "Tokens tile the source", "statement": "The token spans of a lexed text are in order, do not overlap, and everything between them is whitespace or comment.", "quantifier": "every text without combining characters", "why_tests_cant": "all texts", "anchors": ["src/lexer.rs:read_token", "src/lexer.rs:skip_whitespace_and_comments"]}
{"id": "C39", "title": "Number literals have the value they spell", "statement": "Each decimal, hex ($ or 0x), binary (% or 0b) and octal (0o) literal, with ' separators between digits, lexes to one number token whose value is the positional value of its digits, when it fits 31 bits.", "quantifier": "every digit string and separator placement", "why_tests_cant": "digit strings of any length", "anchors": ["src/lexer.rs:to_hex_num", "src/lexer.rs:to_dec_num", "src/lexer.rs:read_token"]}
{"id": "C40", "title": "Comments do not matter", "statement": "Replacing the text of a comment, or removing it, does not change the token sequence.", "quantifier": "every text and comment", "why_tests_cant": "all comment contents", "anchors": ["src/lexer.rs:skip_comment", "src/lexer.rs:skip_star_comment"]}
{"id": "C41", "title": "String escapes", "statement": "A string literal's value is its contents with \\r \\n \\t \\b \\0 replaced by the control bytes and any other escaped character by itself.", "quantifier": "every string literal", "why_tests_cant": "all strings", "anchors": ["src/lexer.rs:clean_str"]}
{"id": "C42", "title": "Lines partition the tokens", "statement": "Line splitting returns consecutive non-empty slices whose concatenation is the token sequence; tokens of one slice share the line of its first token.", "quantifier": "every token sequence", "why_tests_cant": "all token sequences", "anchors": ["src/parser.rs:lines"]}
{"id": "C43", "title": "Nothing on a line is ignored", "statement": "If parsing succeeds, every token of every non-macro line is consumed by the statements of that line; otherwise an error is reported.", "quantifier": "every line", "why_tests_cant": "all token sequences", "anchors": ["src/parser.rs:parse_line", "src/parser.rs:parse_statement"]}
{"id": "C44", "title": "Instructions accept exactly the documented operand shapes", "statement": "An instruction line is accepted iff its name and operand kinds match a documented form, and yields that form with its operands in order; known names with other operands give a wrong-arguments error, and exists() is true exactly for names with a form.", "quantifier": "every name and argument list", "why_tests_cant": "all names and argument lists", "anchors": ["src/parser.rs:make_instr", "waterbear-instruction-derive/src/lib.rs:exists"]}
{"id": "C45", "title": "Macro definitions are checked", "statement": "A macro named like an instruction, with a repeated parameter, or with the same name and parameter count as an earlier macro is rejected.", "quantifier": "every macro definition", "why_tests_cant": "all token sequences and macro tables", "anchors": ["src/parser.rs:parse_macro_header"]}
{"id": "C46", "title": "Includes behave like textual insertion", "statement": "Replacing .include lines by the tokens of the named files, recursively, gives the same statements as a single file with the contents in place, provided line numbers of neighbouring files do not merge.", "quantifier": "every finite include tree", "why_tests_cant": "all include trees", "anchors": ["src/asm.rs:replace_includes"]}
{"id": "C47", "title": "Binary includes reproduce the file", "statement": "A bytes include contributes exactly the file's bytes, in order, at the position of the directive.", "quantifier": "every file content", "why_tests_cant": "all contents", "anchors": ["src/asm.rs:replace_byte_includes"]}
{"id": "C48", "title": "C header defines become aliases", "statement": "A line '#define NAME expr' in an included C header has the effect of NAME equ expr, and other lines are left alone.", "quantifier": "every header text", "why_tests_cant": "all headers", "anchors": ["src/cheader.rs:lex_input"]}
{"id": "C49", "title": "Disassembly terminates", "statement": "Tracing from any entry points over any byte string terminates.", "quantifier": "every byte string and entry point list", "why_tests_cant": "termination over all control-flow graphs", "anchors": ["src/disasm.rs:build_instruction_graph"]}
{"id": "C50", "title": "Disassembly follows control flow completely", "statement": "The traced instructions are closed under control flow: entry points and all in-range successors of traced instructions are traced.", "quantifier": "every byte string and entry point list", "why_tests_cant": "all control-flow graphs", "anchors": ["src/disasm.rs:build_instruction_graph", "src/disasm.rs:targets"]}
{"id": "C51", "title": "Disassembled instructions are the bytes in the file", "statement": "Every traced instruction at an address is the decoding of the bytes at that address, and re-encoding it reproduces them.", "quantifier": "every byte string and traced address", "why_tests_cant": "all byte strings", "anchors": ["src/disasm.rs:build_instruction_graph", "src/instruction.rs:decode"]}
{"id": "C52", "title": "Disassembly covers every byte", "statement": "Every byte of the input lies in a listed instruction, in a .byte line carrying its value, or in an all-zero block of at most 16 bytes.", "quantifier": "every byte string and entry point list", "why_tests_cant": "all byte strings", "anchors": ["src/disasm.rs:disassemble"]}
{"id": "C53", "title": "Symbolic operands keep their numeric value", "statement": "The operand expressions in the disassembly evaluate, with the emitted aliases and each label at its address, to the numeric operand decoded from the bytes.", "quantifier": "every instruction and byte string", "why_tests_cant": "all instructions, addresses", "anchors": ["src/disasm.rs:lift_instr", "src/disasm.rs:compute_aliases", "src/disasm.rs:compute_labels"]}
{"id": "C54", "title": "Reassembling a disassembly reproduces the file", "statement": "If no two listed instructions overlap and every target is the start of a listed instruction, the listing can be printed, read back and assembled, and the bytes come back: filled or cut to the end of the listing's content rounded up to 512 plus the remainder of the length by 512. So the file comes back exactly when its length is a multiple of 512 and its last block has content. With overlapping instructions the bytes can move.", "quantifier": "every byte string of at most 64 KiB, every set of entry points, satisfying the conditions", "why_tests_cant": "all byte strings", "anchors": ["src/disasm.rs:disassemble", "src/asm.rs:assemble"]}
{"id": "C55", "title": "Sprite rows pack one bit per pixel", "statement": "Bit 7-(x mod 8) of byte x/8 of a sprite row is 1 exactly when pixel x is dark (or, in the mask, transparent); padding bits are 0 in the image and 1 in the mask; a row of w pixels takes ceil(w/8) bytes.", "quantifier": "every row width and pixels", "why_tests_cant": "all widths and pixel values", "anchors": ["src/img.rs:Frame::to_1bit_asm"]}
{"id": "C56", "title": "Icon palettes index every colour", "statement": "Palette construction assigns distinct indices 0..n-1 to the distinct colours in first-occurrence order, and every pixel's colour is in the palette.", "quantifier": "every image", "why_tests_cant": "all images", "anchors": ["src/img.rs:Image::get_palette"]}
{"id": "C57", "title": "Icon pixels survive packing", "statement": "Unpacking the emitted pixel data with the emitted palette gives back every pixel's 4-bit-per-channel colour, in the 16-colour, 256-colour and true-colour formats.", "quantifier": "every image", "why_tests_cant": "all images", "anchors": ["src/img.rs:Image::to_icon", "src/img.rs:Color::to_palette_color"]}
{"id": "C58", "title": "Icon size and palette limits are enforced", "statement": "An icon is produced only for 32x32 frames with at most 16 colours and a 72x56 eyecatch; its length is then determined by the number of frames.", "quantifier": "every image", "why_tests_cant": "all images", "anchors": ["src/img.rs:to_icon"]}
{"id": "C59", "title": "Colour scaling is correct rounding", "statement": "Scaling a channel from 0..255 to 0..15 rounds to nearest, is monotone, maps 0 to 0 and 255 to 15, and each of the 16 levels is reached.", "quantifier": "every channel value", "why_tests_cant": "finite but complete; exact rounding of ties", "anchors": ["src/img.rs:Color::scale_channels"]}
{"id": "C60", "title": "VMI header layout", "statement": "The generated VMI file is 108 bytes: checksum, description copied from the VMS file, copyright, time, file number 1, resource name, file name, game flag and little-endian size, each in its place and truncated or nul-padded to its field.", "quantifier": "every VMS file, name, copyright text and time", "why_tests_cant": "all inputs", "anchors": ["src/lib.rs:generate_vmi"]}
{"id": "C61", "title": "Loading a file twice returns the same contents", "statement": "Within one run, loading a path again returns the first load's contents and id even if the file changed on disk, and distinct paths get distinct ids.", "quantifier": "every sequence of loads and every evolution of the file system", "why_tests_cant": "histories", "anchors": ["src/files.rs:SourceFiles::load"]}
{"id": "C62", "title": "Positions in error messages are right", "statement": "The line of a location is one plus the number of line ends before it, and the column is the number of characters since the last line end.", "quantifier": "every text without combining characters, every offset", "why_tests_cant": "all texts", "anchors": ["src/input.rs:Input::update"]}
{"id": "C63", "title": "Error excerpts show the offending line", "statement": "The excerpt printed for a location is the whole source line containing it, and nothing else, and the caret line is as wide as the offending span.", "quantifier": "every text and location", "why_tests_cant": "all texts and offsets", "anchors": ["src/lib.rs:line_for_pos", "src/lib.rs:caret"]}
{"id": "C64", "title": "The front end hands the assembler well-formed programs", "statement": "Whatever the source files contain, a program that was read and macro-expanded has only lower-case non-empty label names, literals in range and no macro calls or includes left; so assembling a file yields the bytes the expanded program means, and an overflow-checked build panics in the assembler only for a layout beyond 2 GiB or backwards, or an overflowing expression, and never runs for ever there.", "quantifier": "every file system, main file and chain of includes and macros", "why_tests_cant": "all texts, include trees and macro tables", "anchors": ["src/asm.rs:assemble_file", "src/asm.rs:read_statements", "src/asm.rs:expand_macros", "src/asm.rs:assemble"]}
{"id": "C65", "title": "Printed programs read back", "statement": "The text printed for a program (the output of the expand command, and each line of it) is read back as the same statements, up to comments and the case of names; a file holding the output of expand assembles to exactly the bytes of the file that was expanded, or fails in the same way. Not covered, and not true: octal literals, .text and .string, strings with quotes or backslashes, macro calls with several arguments. Expanding the output of `expand` again removes at most the comments; from then on nothing changes.", "quantifier": "every list of statements within the stated limits, comments and strings in any letters without combining characters, every include tree and macro table it was expanded from", "why_tests_cant": "all programs", "anchors": ["src/asm.rs:expand_file", "src/ast.rs:Display for Statement", "src/instruction.rs:Display for Instr"]}
{"id": "C66", "title": "Reading a program and assembling it end", "statement": "If no chain of .include lines goes on for ever, reading a program ends with a program, an error or a crash; if in addition no macro calls itself, an overflow-checked assemble of the file ends, and an unchecked one ends unless the addresses leave the 2 GiB and there is a .cnop with an even multiple. If some chain goes on for ever, the program is never accepted. With finitely many files, a chain goes on for ever exactly if a file includes itself, directly or not.", "quantifier": "every file system of sources without combining characters (C headers: ASCII), every main file and include tree", "why_tests_cant": "termination, for all include graphs and texts", "anchors": ["src/asm.rs:read_statements", "src/asm.rs:replace_includes", "src/asm.rs:replace_byte_includes", "src/files.rs:SourceFiles"]}
{"id": "C67", "title": "What can crash assemble", "statement": "Assembling a file panics only if a source file or C header of its include tree contains a number literal of 2^31 or more, an include of a source file is still in the program after includes were replaced (as from a C header), the speed of an icon overflows, the layout leaves 2 GiB or goes backwards, or an expression overflows.", "quantifier": "every file system of sources without combining characters (C headers: ASCII), every main file, both arithmetic modes", "why_tests_cant": "absence of other crashes for all inputs", "anchors": ["src/asm.rs:assemble_file", "src/asm.rs:read_statements", "src/lexer.rs", "src/files.rs:SourceFiles", "src/img.rs:to_icon"]}
{"id": "C68", "title": "Only the tokens and their lines matter", "statement": "If source files or C headers are changed in comments, in white space within lines, in trailing empty lines, in letter case outside strings, or in other ways that leave each token on its line, then assembling and expanding the program give the same bytes and text, or the same failure.", "quantifier": "every pair of file systems on which the program's source files (without combining characters) and C headers (ASCII) have the same tokens on the same lines, every main file, both arithmetic modes", "why_tests_cant": "all programs and all ways of respelling them", "anchors": ["src/asm.rs:assemble_file", "src/asm.rs:expand_file", "src/asm.rs:replace_includes", "src/lexer.rs:lex_input", "src/files.rs:SourceFiles"]}
{"id": "C69", "title": "Converted images and icons assemble", "statement": "The text printed or written by image in an assembly format, saved as a source file, assembles to the sprite's frames: size, mask and pixels of each. The text printed by icon, saved as a source file, assembles to the icon file: frame count, speed, palettes, pixels and eyecatch.", "quantifier": "every image with non-empty rows and frames up to 255x255, every icon image and eyecatch the command accepts, every file name and argument without line breaks and combining characters, with or without a final line break", "why_tests_cant": "all images and names, through printing, lexing, parsing and assembling", "anchors": ["src/lib.rs:run_command", "src/img.rs:to_icon", "src/img.rs:to_1bit_asm", "src/ast.rs:Statement", "src/asm.rs:assemble_file"]}
{"id": "C70", "title": "What a command does to the files", "statement": "At every moment of a run of assemble, disassemble, expand, image, icon or vmi, the disk is as it was before, except that the one output file may hold a beginning of its final contents. A command whose input is wrong touches no file, prints nothing and does not end with code 0. If a command ends with code 0, it printed everything, or its output file holds everything (only image may have cut it). The only exit codes are 0 and 1, and 1 means that nothing was changed. Disassembling to a file and assembling that file gives the binary again.", "quantifier": "every disk, every command and arguments, every way the operating system may refuse or shorten writes, every moment at which the program may be stopped", "why_tests_cant": "all crash points, all partial writes and all inputs", "anchors": ["src/lib.rs:run_command", "src/lib.rs:assemble_cmd", "src/lib.rs:disassemble_cmd"]}
{"id": "C71", "title": "Errors point at the right place", "statement": "When assembling fails, the error points at the source text it is about: at the undefined name, the division whose right operand is 0, the operand or value that does not fit (and the message has its value), the unknown instruction, directive or macro, the unexpected token, the two definitions of a name, and so on; if the text is in a macro, it also points at the calls it was expanded from, up to a line of the program. All these places are in files that were loaded, with the right byte offset, line and column.", "quantifier": "every program of any number of files, macros and images, every error the assembler can report, every nesting of macro calls, both arithmetic modes", "why_tests_cant": "every kind of error at every place of every program", "anchors": ["src/asm.rs:assemble_file", "src/asm.rs:AssemblyError", "src/parser.rs:ParseError", "src/expression.rs:EvaluationError", "src/instruction.rs:EncodingError", "src/location.rs:Span"]}
{"id": "C72", "title": "Errors are reported with the line they are on", "statement": "For every error of the assembler, the program prints each place the error has: the path of the file (from the working directory, if the file is in it), the line number and the columns, the text of exactly that line of the file, and below it carets under the columns, with the caption of the error; then in the same way, indented, every macro call the place was expanded from. Reporting an error never fails.", "quantifier": "every program of any number of files, every error the assembler can report, every nesting of macro calls, every text (any grapheme segmentation that treats line breaks as Unicode does), both arithmetic modes", "why_tests_cant": "every error at every place of every program; indices into the text can be out of bounds or off by a line only for particular texts", "anchors": ["src/lib.rs:print_error", "src/lib.rs:highlight_line_indented", "src/lib.rs:line_for_pos", "src/lib.rs:caret", "src/files.rs:SourceFiles::for_id"]}
{"id": "C73", "title": "The forms listed for wrong arguments are those that are accepted", "statement": "If an instruction is given wrong arguments, the message lists the allowed forms of that instruction: all of them, in the notation and order of the manual, or says that it expects none. A list of arguments is accepted exactly when it has one of the listed forms.", "quantifier": "every instruction name and every list of arguments", "why_tests_cant": "the lists in the error messages are separate from the code that accepts arguments, and argument lists are unbounded", "anchors": ["src/parser.rs:make_instr", "src/parser.rs:wrong_args", "src/lib.rs:print_error", "src/ast.rs:ArgType::to_str", "docs/instructions.md"]}
{"id": "C74", "title": "The JSON of an image is the image", "statement": "The text that image prints or writes in the formats json and json-pretty is a JSON document whose value is the image: its frames in order, each with its delay and its rows of colours. The image can be got back from the text. The pretty text differs from the compact one only in spaces and line breaks.", "quantifier": "every image (any number of frames, any rows, any colours and delays)", "why_tests_cant": "images are unbounded, and the text must be valid JSON for each", "anchors": ["src/lib.rs:run_command", "src/img.rs:Image", "src/img.rs:Frame", "src/img.rs:Color"]}
{"id": "C75", "title": "Images are loaded pixel by pixel", "statement": "An image file is loaded exactly if the decoder for its kind, which is known by the extension, reads it; the image then has the frames of the file in order, each with its delay, its size and every pixel at its place. A still picture is one frame without delay. Otherwise there is an error: that the file cannot be read, or that it is not an image of its kind.", "quantifier": "every file, every path, every result of the image decoders", "why_tests_cant": "sizes, pixels and paths are unbounded", "anchors": ["src/img.rs:load_image", "src/img.rs:load_gif", "src/img.rs:load_png", "src/img.rs:to_frame", "src/img.rs:to_image"]}
{"id": "C76", "title": "The error reported is the first thing that is wrong", "statement": "The error reported for a program whose files could be read and whose macros could be expanded is really wrong with it, with the values and names the message has, and it is the first such thing: the layout and the labels are checked first (the operands of .cnop, a label defined twice in its scope, of which the second is the one blamed), then the variables (a value that cannot be computed, a name that exists already), then the bytes (a value that does not fit its .byte, .word or the operand it is for, a text longer than its length, an address outside of the 64K), each in the order of the source, and operands from left to right.", "quantifier": "every program, every error", "why_tests_cant": "programs and the number of things that are wrong with them are unbounded", "anchors": ["src/asm.rs:compute_names", "src/asm.rs:compute_labels", "src/asm.rs:generate_bytes", "src/instruction.rs:Instr::eval", "src/expression.rs:Expr::eval"]}
{"id": "C77", "title": "The syntax error reported is the first one, and says what could stand there", "statement": "The error reported for a source text whose tokens are no program says what is wrong with it and points at it. The macro definitions are checked first, then the other lines, each in the order of the source; the error is about the first one that is wrong. If a line cannot be continued, the error points at the first token that no continuation allows, and what the message says is missing (a comma, a parenthesis, a name, a number, a string, an expression, ...) is what could stand there, and nothing else could but the operators of an expression. If the line is complete, the error points at the first token after it. Otherwise it is about the meaning of the line: a label followed by something that is no instruction, an unknown directive, the operands of an instruction, a directive without values, the properties of an image; or about a macro definition: its name, its parameters, or an earlier macro with the same name and number of parameters.", "quantifier": "every sequence of tokens, every line, every error", "why_tests_cant": "the lines, the expressions in them and the continuations of a line are unbounded", "anchors": ["src/parser.rs:parse", "src/parser.rs:parse_line", "src/parser.rs:parse_expr", "src/parser.rs:parse_macros", "src/asm.rs:read_statements"]}
{"id": "C78", "title": "The error of a macro call is the first thing that is wrong with it", "statement": "The error reported for a program whose macro calls cannot be expanded is the first thing that is wrong with them, and it points at it. The calls are taken in the order of the source, and a call in the body of a macro where it stands in the body. Wrong is: a call outside of macros of a name that no macro with so many parameters has; a label of a macro that is defined twice in it (the second definition is blamed, before any line of the body); and in the lines of the body, from left to right, a parameter the macro does not have, a macro label it does not define, an immediate or an indirection mode passed for a parameter that is part of an expression; then an instruction that does not exist, or that does not have the arguments that result. If no macro calls itself, either all calls have a meaning or exactly one such error is reported.", "quantifier": "every program whose macro calls outside of macros use no macro parameters or macro labels in their arguments, every error", "why_tests_cant": "programs, macro bodies, arguments and the depth of calls are unbounded", "anchors": ["src/asm.rs:expand_macros", "src/asm.rs:expand", "src/asm.rs:replace_args", "src/asm.rs:gen_labels", "src/expression.rs:Expr::replace_macro_args"]}
{"id": "C79", "title": "Includes of data stand for the bytes of the file, the icon or the sprite", "statement": "Wherever a program includes bytes, an icon or a sprite, the assembled program has the lines of data there that the documentation promises, and everything else is left as it is: the bytes of the file; the header, palette, frames and eyecatch of the icon, with the low 16 bits of the value of its speed, or 10; the frames of the sprite one after the other, with sizes and masks if asked for. If one of these includes stands for no bytes, the error is that of the first such include, and of the first of these that is wrong with it: the speed has no value, the eyecatch is not a path, the image cannot be loaded, it has more than 16 colours (the number is reported), its frames are not 32 by 32, the eyecatch cannot be loaded, the eyecatch is not 72 by 56; for sprites with a size: wider, then taller, than 255.", "quantifier": "every program, every file system, every decoder of images whose frames have one size, every order of the colours", "why_tests_cant": "programs, files and images are unbounded, and the order of the colours is not determined", "anchors": ["src/asm.rs:replace_byte_includes", "src/img.rs:to_icon", "src/img.rs:to_1bit_asm", "docs/directives.md"]}
{"id": "C80", "title": "The error of reading the source files is the first thing wrong with them", "statement": "The main file is read line by line, and a file included by `.include` where it is included. The error reported for files that cannot be read is the first thing that is wrong, and it points at it: a file is missing or is no UTF-8 text (the path it was looked for at is named); something in it is no token (the place after the last token is given); something follows the name of an included assembly file on the line (this token is highlighted, after all of the included file has been read); in a C header, a definition is incomplete or wrong (the first token that cannot be there, and what could be). If nothing of this is the case, all files are read, and otherwise exactly one such error is reported, before anything else that is wrong with the program.", "quantifier": "every file system, every main file whose includes have no combining characters (C headers: ASCII), every chain of includes, every error", "why_tests_cant": "the files, their number, their lines and the depth of includes are unbounded", "anchors": ["src/asm.rs:replace_includes", "src/asm.rs:read_statements", "src/cheader.rs:lex_input", "src/files.rs:SourceFiles::load", "src/lexer.rs:lex_input"]}
{"id": "C81", "title": "Files are assembled to exactly the bytes that they stand for", "statement": "The bytes that `assemble` writes are determined by the files, step by step as documented: a file included by `.include` stands where it is included, a C header stands for its `#define` lines as definitions, the names of included data are paths found from the including file; the tokens are a program by the grammar; bytes, icons and sprites stand for lines of data; macro calls stand for the expanded bodies with fresh labels; and the resulting lines stand for the bytes of their instructions and data at their addresses. Whenever the files stand for bytes in this way they are assembled, to these bytes, whichever numbers the files have and however often they are included; only the palettes of icons may list their colours in another order. So `assemble` ends with code 0 exactly for such files (if the system lets it write), the output file then holds these bytes, and no other file is changed.", "quantifier": "every file system, every main file whose includes have no combining characters (C headers: ASCII), every chain of includes, every program without macro parameters in calls outside of macros, every decoder of images, every supply of label suffixes", "why_tests_cant": "the files, their contents, the depth of includes and of macro calls are unbounded", "anchors": ["src/asm.rs:assemble_file", "src/asm.rs:read_statements", "src/asm.rs:replace_includes", "src/cheader.rs:lex_input", "src/parser.rs:parse", "src/asm.rs:expand_macros", "src/asm.rs:assemble"]}
{"id": "C82", "title": "The error for files is the first thing that is wrong with them", "statement": "When `assemble` refuses files, the error it reports is the first thing that is wrong with them, in a fixed order: a file that cannot be read or lexed or an include that cannot be followed (C80); then a line that does not follow the grammar (C77); then an include of data that stands for nothing (C79); then a macro call that cannot be expanded (C78); then what is wrong with the layout, the labels, the variables or the bytes of the resulting program (C76). Whenever something is wrong in this sense, it is reported. So at most one error is right for given files, and none is right for files that stand for bytes (C81): neither the numbers of the files, nor the way in which included data are written out as lines, nor the order of colours in palettes changes the error. With such an error the command ends with code 1 and has written nothing, and code 1 means that there is one.", "quantifier": "every file system, every main file whose includes have no combining characters (C headers: ASCII), every program without macro parameters in calls outside of macros that stays below 2 GiB as far as it is laid out, every decoder of images, every supply of label suffixes", "why_tests_cant": "the files, the depth of includes and calls, and the combinations of several faults in one program are unbounded", "anchors": ["src/asm.rs:assemble_file", "src/asm.rs:read_statements", "src/asm.rs:replace_includes", "src/parser.rs:parse", "src/asm.rs:expand_macros", "src/asm.rs:assemble"]}
{"id": "C83", "title": "The messages of assemble and expand say what is wrong", "statement": "Apart from the warnings of C84, `assemble` that ends with code 0 writes to the standard error how many bytes the output file has and its name; `expand` that ends with code 0 writes nothing there. When either of them ends with code 1, it writes which file could not be processed and a message: a sentence for this error, with the names, numbers and files that it is about, an empty line, the lines of the source that are to blame with their captions, each under its heading if there are two, and for a wrong use of an instruction its allowed forms. Every error that can occur has such a message, and `expand` writes the one that `assemble` would. Messages with different sentences or with different names or numbers in them are different texts, so a user can tell from the message what is wrong. (Not if a loaded file has just one byte: then writing the message may crash; and not if names with line breaks occur in the sentence.)", "quantifier": "every file system, every main file, every failing program whose loaded files do not have exactly one byte, every decoder of images, every reason given by the operating system, both build modes", "why_tests_cant": "the programs, names, numbers and files in the messages are unbounded, and that no two messages coincide is a statement about all pairs", "anchors": ["src/lib.rs:print_error", "src/lib.rs:assemble_cmd", "src/lib.rs:run_command", "src/asm.rs:expand_file", "src/expression.rs:EvaluationError"]}
{"id": "C84", "title": "Files that are found only from the working directory are warned about", "statement": "`assemble` and `expand` write a warning to the standard error exactly when they look from a source file for a file with a relative name that is missing next to the source file but is found from the working directory. The warning names both paths. Each warning is about such a name looked for from a file that was loaded, whatever the outcome of the run. If there are no warnings, no file with a path that depends on the working directory was loaded. If all source files are in the working directory, there are no warnings. When the run succeeds, the files determine the list of warnings: first those of included sources, C headers and data in the order of reading, where a source or header is looked for twice, the second time with the path that was found; then those of the data that the program includes, in the order of the program, looked for from the main file. The warnings come before the message of C83, and nothing else is written.", "quantifier": "every file system, every main file and every working directory with an absolute path; the exact list for every program whose files have no combining characters (C headers: ASCII)", "why_tests_cant": "the tree of includes, the directories and the names in it are unbounded, and that nothing is taken silently from the working directory is a statement about all of them", "anchors": ["src/files.rs:SourceFiles::path", "src/files.rs:SourceFiles::load", "src/asm.rs:replace_includes", "src/asm.rs:replace_byte_includes", "src/lib.rs:assemble_cmd"]}
{"id": "C85", "title": "disassemble, icon and vmi say what is wrong", "statement": "`disassemble` that makes a listing writes to the standard error one line for each position beyond the end of the binary that is an entry point or where control can go from a listed instruction, and nothing else; only jumps into another memory may be left out. It ends with code 1 exactly when the file cannot be read, the type of file is unknown or control can reach an instruction that is cut off by the end of the binary; then it says which of these it is, with the file, the type, or the position and the first byte of the instruction. `icon` ends with code 1 exactly when the icon or the eyecatch cannot be loaded, the icon has more than 16 colours or a size other than 32x32, or the eyecatch has a size other than 72x56, and it says the first of these that is so, with the file and the number of colours. `vmi` ends with code 1 exactly when the file cannot be read, and it names the file. If `icon` and `vmi` do not end with code 1, they write nothing there (apart from the message of a panic).", "quantifier": "every file system, every binary of less than 2 GiB, every image, every decoder, every argument of the commands", "why_tests_cant": "binaries, their control flow, images and names are unbounded, and that no position beyond the end is missed is a statement about all of them", "anchors": ["src/disasm.rs:build_instruction_graph", "src/lib.rs:disassemble_cmd", "src/lib.rs:generate_vmi", "src/lib.rs:run_command", "src/img.rs:to_icon"]}
{"id": "C86", "title": "What labels and variables are called does not matter", "statement": "If the labels, variables and aliases of a program are renamed, such that different names stay different, local names stay local and the words of the language keep their meaning, the program assembles to the same bytes, or is refused with the same error, or crashes in the same way; only a name in the error is the new one. One name can be replaced by another that is not in use. The same holds for the text of a source file without macros and includes, whatever the spacing, the comments and the case of its letters. If the new name is in use, this need not be so.", "quantifier": "every program (list of statements), every renaming of its names, both build modes; every source file without combining characters, without macros and includes", "why_tests_cant": "programs and names are unbounded, and the order in which names are looked up must not matter for any of them", "anchors": ["src/asm.rs:assemble", "src/asm.rs:compute_names", "src/asm.rs:compute_labels", "src/env.rs:Env", "src/lexer.rs", "src/parser.rs"]}
{"id": "C87", "title": "The listings of images and icons say what the data is", "statement": "The text that `image` prints in an assembly format has for each frame a comment with its width and height, then the lines of data: one for the size, one for each row of the mask, if there is one, and one for each row of the picture. The text that `icon` prints says that it is generated and by which arguments, the number of frames and the speed, the kind of eyecatch, the parts of the header, the palette and the frames of the icon, numbered from 1 if there are several, and the palette and the pixels of the eyecatch; each comment is followed by exactly its lines of data. Numbers in base ten are written without leading zeros, in base sixteen with at least two digits below 256 and at least four otherwise, in base two with at least eight. In the place of an include of data, the program that `expand` prints has such a listing: of the icon; of the sprite, after a comment with its path and options; or one line of bytes.", "quantifier": "every image, every eyecatch, every argument of the commands, every number literal of 32 bits", "why_tests_cant": "the number of frames, their sizes and colours are unbounded", "anchors": ["src/img.rs:Frame::to_1bit_asm", "src/img.rs:Image::to_icon", "src/img.rs:to_icon", "src/ast.rs:Statement", "src/expression.rs:Display for Expr", "src/lib.rs:run_command"]}
{"id": "C88", "title": "How each command ends", "statement": "`expand` ends with code 0 whenever the files can be read and the macros expanded, so whatever `assemble` assembles can be expanded; otherwise it ends as `assemble` does, and no file is touched. `disassemble` always ends, and if the system lets it write, it ends with code 0 or 1 and never crashes. `vmi` crashes exactly if the file is too short to hold the description (0x30 bytes, or 0x230 for a game) and ends with code 1 exactly if it cannot be read. `image` never ends with code 1: it crashes exactly if the image cannot be loaded or the system does not let it write. `icon` always ends and crashes exactly if the speed is not a number below 65536, or if the eyecatch has no frames.", "quantifier": "every command line, every content of the disk, every image, every way in which the system accepts writes", "why_tests_cant": "a crash may hide in any of unboundedly many binaries, source files and images", "anchors": ["src/lib.rs:run_command", "src/lib.rs:expand_cmd", "src/lib.rs:disassemble_cmd", "src/lib.rs:generate_vmi", "src/asm.rs:expand_file", "src/ast.rs:escape_string", "src/img.rs:to_icon"]}
{"id": "C89", "title": "The C interface hands on its arguments", "statement": "Called from C with an array of pointers to NUL-terminated strings, the library runs the command line that consists of exactly these strings, in their order, if all are UTF-8, wherever they lie in memory and however they overlap; if one is not UTF-8 it crashes before doing anything.", "quantifier": "every memory, every array of pointers to NUL-terminated strings", "why_tests_cant": "all memories, lengths and overlaps", "anchors": ["libwaterbear/src/lib.rs:waterbear_invoke_command_line"]}
{"id": "C90", "title": "The comments of a disassembly are true", "statement": "In a listing, the comment `Arrived from` on an instruction lists, if asked for, in order exactly the listed instructions from which control can go there; only jumps into another memory may be left out. `Entry point` stands before exactly the entry points in the binary. `Overlaps with` stands before an instruction exactly if it has a byte in common with another listed one, and lists all of these in order, except one that starts two bytes before. The comment of a line of data shows its bytes as text and is there exactly if one of them can be printed. The file has one line for each of these, with the position if asked for. There are no other comments before instructions and data.", "quantifier": "every binary below 2 GiB, every list of entry points, with and without positions and origins", "why_tests_cant": "the graph of control flow of every binary; overlaps of any shape", "anchors": ["src/disasm.rs:disassemble", "src/disasm.rs:find_overlaps", "src/disasm.rs:build_instruction_graph", "src/disasm.rs:DStatement::bytes", "src/lib.rs:disassemble_cmd"]}
{"id": "C91", "title": "Line ends do not matter", "statement": "If the lines of source files or C headers end with CR LF instead of LF, or the other way round, the tokens are the same and on the same lines, and assembling and expanding give the same bytes and text, or the same failure. Strings that go over the end of a line contain the line end, so for them this does not hold; and a CR alone does not end a line.", "quantifier": "every source text without combining characters and all trees of included source files and ASCII C headers, with any of the files changed", "why_tests_cant": "all source texts: line ends after comments, labels, numbers, at the start of a file, in empty lines", "anchors": ["src/input.rs:Input::update", "src/lexer.rs:skip_to_eol", "src/lexer.rs:lex_for_ws", "src/asm.rs:assemble_file"]}
