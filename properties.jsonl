{"id": "C01", "title": "PXA compression round-trips", "statement": "Code written with the current (PXA) compression and read back with the decompressor is the same code, character for character, whichever match finder settings (fast, optimal, or following a hand-marked block layout) produced the token stream.", "quantifier": "for every P8SCII code string (no NUL inside a raw block) and every way of cutting it into literals, raw blocks and back-references that copy correct text", "why_tests_cant": "The number of token streams is unbounded and the encoder state (move-to-front table, bit phase) depends on the whole prefix; tests sample a handful of carts.", "anchors": ["pico_compress.py:compress_code", "pico_compress.py:uncompress_code", "pico_compress.py:update_mtf"]}
{"id": "C02", "title": "The match finder always produces a correct cover of the code", "statement": "For any code, the list of items the match finder emits, expanded left to right (a literal appends itself, a back-reference copies already produced text), reproduces exactly the code; every offset is between 1 and the permitted maximum and never reaches before the start; every count is at least the minimum and at most the maximum.", "quantifier": "for every code string, every cost function, every min/max count and offset limit", "why_tests_cant": "The search depends on hash-chains and cost heuristics; a single wrong boundary only shows on rare inputs.", "anchors": ["pico_compress.py:get_lz77"]}
{"id": "C03", "title": "Move-to-front table stays a permutation", "statement": "While compressing or decompressing, the move-to-front table always contains each of the 256 characters exactly once, so every character has a literal code and writer and reader assign it the same one.", "quantifier": "for every sequence of literals and blocks", "why_tests_cant": "State depends on unbounded history.", "anchors": ["pico_compress.py:update_mtf", "pico_compress.py:uncompress_code", "pico_compress.py:compress_code"]}
{"id": "C04", "title": "Bit stream writer and reader are inverse", "statement": "Any sequence of bits/fields written to the bit stream and flushed is read back identically field by field, at any bit phase, and the bytes used are exactly the rounded up bit count.", "quantifier": "for every sequence of (width, value) fields with value below 2^width", "why_tests_cant": "Unbounded sequences and phases.", "anchors": ["utils.py:BinaryBitWriter", "utils.py:BinaryBitReader"]}
{"id": "C05", "title": "Back-reference fields are decodable and never collide with the raw-block marker", "statement": "Each back-reference offset 1..32768 and count >= 3 written by the compressor is decoded to the same offset and count, and no back-reference is ever decoded as the start of a raw block (nor vice versa).", "quantifier": "for every offset and every count, including arbitrarily long counts", "why_tests_cant": "The count is an unbounded unary-like chain; the marker collision involves one specific encoding among 32768.", "anchors": ["pico_compress.py:compress_code.write_match", "pico_compress.py:uncompress_code"]}
{"id": "C06", "title": "Old compression round-trips", "statement": "Code written in the legacy (0x3a63) format is read back unchanged, for any correct cover by literals and back-references within the legacy limits.", "quantifier": "for every NUL-free code string and every correct cover with offset < 3136 and 3 <= count <= 17", "why_tests_cant": "Unbounded inputs; escape byte for characters outside the 59-entry table and packed two-byte references interact.", "anchors": ["pico_compress.py:compress_code", "pico_compress.py:uncompress_code", "pico_compress.py:k_old_code_table"]}
{"id": "C07", "title": "Raw (uncompressed) code round-trips exactly when it can", "statement": "Code stored uncompressed in a zero-filled code area is read back unchanged if it contains no NUL and does not begin with one of the compression signatures; the two exclusions are necessary.", "quantifier": "for every code string shorter than the code area", "why_tests_cant": "The exclusions are only hit by specific prefixes.", "anchors": ["pico_compress.py:compress_code", "pico_compress.py:uncompress_code"]}
{"id": "C08", "title": "Compressed size equals what was written", "statement": "The reported size of a stored code area equals the number of bytes the writer produced, for the PXA, legacy and raw layouts, so copying that many bytes keeps the code readable.", "quantifier": "for every code string and layout", "why_tests_cant": "Unbounded inputs; each layout has its own terminator convention.", "anchors": ["pico_compress.py:get_compressed_size", "pico_cart.py:write_cart_to_tiny_rom"]}
{"id": "C09", "title": "ROM image round-trips", "statement": "Writing a cart to a ROM image and reading it back restores all 0x4300 bytes of data, the code, and with trailer the version id, version tuple and platform; the image always has the exact fixed size.", "quantifier": "for every cart whose compressed code fits", "why_tests_cant": "Layout overlap and offset errors only show for particular sizes.", "anchors": ["pico_cart.py:write_cart_to_rom", "pico_cart.py:read_cart_from_rom"]}
{"id": "C10", "title": "A corrupted ROM image is rejected", "statement": "If any byte covered by the trailer hash changes so that the hash differs, reading fails instead of returning a cart; a zero or matching hash is accepted.", "quantifier": "for every image and hash function value", "why_tests_cant": "Needs quantification over all images.", "anchors": ["pico_cart.py:read_cart_from_rom", "pico_cart.py:write_cart_to_rom"]}
{"id": "C11", "title": "Tiny ROM round-trips", "statement": "A tiny ROM (code only) is never longer than the raw code or is compressed code, and reading it gives the same code.", "quantifier": "for every NUL-free code not starting with a compression signature, shorter than the code area", "why_tests_cant": "Choice between two layouts depends on sizes.", "anchors": ["pico_cart.py:write_cart_to_tiny_rom", "pico_cart.py:read_cart_from_rom"]}
{"id": "C12", "title": "Memory accessors obey read/write laws", "statement": "A 4/8/16/32-bit write is read back masked to its width at the same place and leaves every other nybble/byte unchanged; block copies change exactly the destination range; sizes never change.", "quantifier": "for every memory content, in-range address and value", "why_tests_cant": "All addresses, contents, values.", "anchors": ["pico_defs.py:Memory"]}
{"id": "C13", "title": ".p8 text round-trips every data section", "statement": "Saving a cart as .p8 text and loading it restores all gfx, map, flag, sfx, music bytes and the label, including when trailing default lines are omitted.", "quantifier": "for every 0x4300-byte ROM content and every 128x128 label of colours 0..31", "why_tests_cant": "2^(8*0x4300) contents; trailing-line elision and bit shuffling are easy to get wrong for rare values.", "anchors": ["pico_cart.py:write_cart_to_source", "pico_cart.py:read_cart_from_source", "pico_defs.py:mem_create_rom"]}
{"id": "C14", "title": ".p8 text round-trips code, version and metadata", "statement": "Saving a cart as .p8 text and loading it restores the code exactly (any number of lines, empty code, trailing newlines), provided that no code line looks like a section header or ends with a carriage return, and no metadata section is empty; the version id and metadata lines are restored too.", "quantifier": "for every cart meeting the provisos", "why_tests_cant": "All strings; provisos need witnesses.", "anchors": ["pico_cart.py:write_cart_to_source", "pico_cart.py:read_cart_from_source"]}
{"id": "C15", "title": "Sound note packing is a bijection", "statement": "Every 16-bit sfx note value is written as five hex digits and read back to the same 16 bits; every music row likewise.", "quantifier": "for all 65536 note values and all music rows", "why_tests_cant": "Exhaustive claim over packed bit fields.", "anchors": ["pico_cart.py:write_cart_to_source", "pico_cart.py:read_cart_from_source"]}
{"id": "C16", "title": "P8SCII and Unicode conversion round-trips", "statement": "Converting any P8SCII string to Unicode text and back gives the same string, with normal or italic capitals, including two-codepoint characters next to anything.", "quantifier": "for every P8SCII string", "why_tests_cant": "Adjacency effects of two-codepoint characters over all strings.", "anchors": ["pico_defs.py:to_p8str", "pico_defs.py:from_p8str", "pico_defs.py:k_charset"]}
{"id": "C17", "title": "String literal output parses back", "statement": "The literal text produced for any string value, in any style (quoted either way, long bracket, shortest), is parsed back to the same value, and a quoted literal ends exactly at its closing quote.", "quantifier": "for every string value and option combination", "why_tests_cant": "Digit-after-escape, bracket level and newline cases over all strings.", "anchors": ["pico_output.py:format_string_literal", "pico_tokenize.py:parse_string_literal", "pico_tokenize.py:parse_char_escape"]}
{"id": "C18", "title": "Numeric literal output parses back (PICO-8)", "statement": "The text produced for any of the 2^32 fixed-point values, including the hex form, the shortened decimal form and the negated/complemented forms, denotes exactly that value.", "quantifier": "for every 32-bit value and every base/sign option", "why_tests_cant": "2^32 values times options.", "anchors": ["pico_output.py:format_fixnum", "pico_output.py:float_str_minify", "pico_tokenize.py:parse_fixnum"]}
{"id": "C19", "title": "Integer literal output parses back (Picotron)", "statement": "The text produced for any 64-bit integer denotes that integer (as an integer, not a float) when parsed, after applying the unary prefix.", "quantifier": "for every 64-bit value and every base/sign option", "why_tests_cant": "2^64 values.", "anchors": ["pico_output.py:format_luanum", "pico_tokenize.py:parse_luanum"]}
{"id": "C20", "title": "Shortening a decimal literal keeps its value", "statement": "Shortening a decimal text by dropping digits (rounding down or up) never changes the value it is read as, for any reader, if the unshortened text (or a later candidate) was right; otherwise it reports an error.", "quantifier": "for every parse function, target and decimal text", "why_tests_cant": "The reader is arbitrary (float rounding).", "anchors": ["pico_output.py:float_str_minify", "pico_output.py:float_str_add_1"]}
{"id": "C21", "title": "Constant folding agrees with the runtime (fixed point)", "statement": "Whenever the minifier folds a PICO-8 arithmetic, bitwise, shift, rotate, comparison or min/max/mid/abs/flr/ceil expression, the constant is the value the 32-bit fixed-point machine computes; in particular it never folds division by zero or overflowing results.", "quantifier": "for all pairs of 32-bit operands", "why_tests_cant": "2^64 operand pairs.", "anchors": ["pico_constfold.py:lua_add .. lua_rotr", "pico_constfold.py:k_const_binary_ops"]}
{"id": "C22", "title": "Constant folding agrees with the runtime (64-bit integers)", "statement": "Whenever the minifier folds a Picotron integer expression the constant is the value 64-bit two's complement Lua arithmetic computes.", "quantifier": "for all pairs of 64-bit operands", "why_tests_cant": "2^128 operand pairs.", "anchors": ["pico_constfold.py"]}
{"id": "C23", "title": "Constant folding always terminates", "statement": "Folding any constant expression terminates without exhausting the stack.", "quantifier": "for every operator and operands", "why_tests_cant": "The failing operand is one value in 2^32.", "anchors": ["pico_constfold.py:lua_shl", "pico_constfold.py:lua_shr", "pico_constfold.py:lua_lshr", "pico_constfold.py:lua_rotl", "pico_constfold.py:lua_rotr"]}
{"id": "C24", "title": "Logical folding keeps Lua semantics", "statement": "Folding and/or/not/==/~= and if-conditions over constants picks the same value or branch as Lua evaluation, including when the other operand is not constant, and including how many values the expression yields.", "quantifier": "for every operand expression and environment", "why_tests_cant": "Non-constant operand ranges over all expressions.", "anchors": ["pico_constfold.py:fold_consts", "pico_constfold.py:lua_and", "pico_constfold.py:lua_or"]}
{"id": "C25", "title": "Erasing folded constants from an assignment keeps the other variables' values", "statement": "When constant variables are removed from a multiple assignment together with their sources, every remaining variable gets the same value as before.", "quantifier": "for every list of targets, sources (including calls returning any number of values) and erased subset", "why_tests_cant": "Interaction of arity adjustment with removal.", "anchors": ["pico_constfold.py:erase_assign_targets", "pico_constfold.py:fold_consts.visit_assign"]}
{"id": "C26", "title": "Generated identifiers are valid, distinct and never reserved", "statement": "The sequence of short names is infinite, never repeats, never contains a keyword, never starts with a digit and uses only allowed characters.", "quantifier": "for every character-frequency order and every position in the sequence", "why_tests_cant": "Infinite sequence, arbitrary alphabet order.", "anchors": ["pico_rename.py:rename_tokens.get_idents", "pico_rename.py:rename_tokens.get_next_ident_char"]}
{"id": "C27", "title": "Renaming never merges conflicting variables", "statement": "After renaming, two variables whose scopes interfere (or two globals, or two members) never share a name, preserved names are never reused in a conflicting way, and every variable that needs a name gets one.", "quantifier": "for every program's variable/scope usage sets", "why_tests_cant": "Quantifies over all programs and assignment orders.", "anchors": ["pico_rename.py:rename_tokens"]}
{"id": "C28", "title": "Renaming preserves name resolution", "statement": "After renaming, every identifier occurrence resolves lexically to the same variable as before.", "quantifier": "for every scope tree, declarations and uses", "why_tests_cant": "Quantifies over all programs.", "anchors": ["pico_rename.py:rename_tokens", "pico_parse.py:Scope"]}
{"id": "C29", "title": "Preserve rules: exclusion wins", "statement": "A name is preserved iff no matching rule says otherwise and some rule (exact, pattern or default) says to preserve it; a negative rule always wins regardless of order among patterns.", "quantifier": "for every rule sequence and name", "why_tests_cant": "All rule sequences.", "anchors": ["pico_rename.py:IncludeExcludeMapping", "pico_rename.py:TableMemberPairIncludeExcludeMapping"]}
{"id": "C30", "title": "Whitespace removal keeps the token sequence", "statement": "The minified text, written with whitespace only where the joint would mis-tokenize, tokenizes back to exactly the same tokens.", "quantifier": "for every token sequence", "why_tests_cant": "Pairwise check must imply whole-sequence correctness for all sequences.", "anchors": ["pico_output.py:output_node", "pico_output.py:need_whitespace_between", "pico_tokenize.py:tokenize"]}
{"id": "C31", "title": "Removing redundant parentheses keeps the parse", "statement": "After the minifier removes parentheses, parsing the text gives the same expression tree up to parentheses, for all operator precedences and associativities.", "quantifier": "for every expression tree", "why_tests_cant": "All nestings of 20+ operators.", "anchors": ["pico_minify.py:minify_code.fixup_nodes_pre", "pico_parse.py:parse_expr", "pico_parse.py:get_precedence"]}
{"id": "C32", "title": "Merging assignments keeps the final state", "statement": "When the minifier merges consecutive assignments into one multiple assignment, the final values of all variables are unchanged.", "quantifier": "for every store and every mergeable pair", "why_tests_cant": "All stores, all expressions.", "anchors": ["pico_minify.py:minify_merge_assignments"]}
{"id": "C33", "title": "LZ4 round-trips", "statement": "Data compressed as LZ4 is decompressed to the same bytes; the block obeys the end-of-block rules.", "quantifier": "for every byte string", "why_tests_cant": "Unbounded data, length-extension chains.", "anchors": ["pico_export.py:lz4_compress", "pico_export.py:lz4_uncompress"]}
{"id": "C34", "title": "Picotron ROM round-trips", "statement": "Writing a Picotron cart to ROM form and reading it back gives the same files with the same contents in every case where writing succeeds.", "quantifier": "for every file set with NUL-free paths", "why_tests_cant": "Unbounded files; 255-byte size escape.", "anchors": ["picotron_cart.py:write_cart64_to_rom", "picotron_cart.py:read_cart64_from_rom"]}
{"id": "C35", "title": "Image steganography round-trips and is invisible", "statement": "Data hidden in a cart image is extracted unchanged and only the low bits of each channel change, for both PICO-8 (2 bits) and Picotron (3+3+3+2 bits) images.", "quantifier": "for every template image and data", "why_tests_cant": "All images.", "anchors": ["pico_cart.py:write_cart_to_image", "pico_cart.py:read_cart_from_image", "picotron_cart.py:write_cart64_to_image", "picotron_cart.py:read_cart64_from_image"]}
{"id": "C36", "title": "URL form round-trips", "statement": "The base64 code field and the run-length graphics field of a cart URL decode to the same code bytes and the same 128x128 graphics.", "quantifier": "for every code byte string and every 16384-pixel image", "why_tests_cant": "Run lengths at the 67 boundary, trailing zero elision.", "anchors": ["pico_cart.py:write_cart_to_url", "pico_cart.py:read_cart_from_url"]}
{"id": "C37", "title": "Clipboard form round-trips", "statement": "Data wrapped as clipboard text is unwrapped to the same bytes, and text without the markers is rejected.", "quantifier": "for every byte string", "why_tests_cant": "All byte strings.", "anchors": ["pico_cart.py:write_raw_to_clip", "pico_cart.py:read_raw_from_clip"]}
{"id": "C38", "title": "PXU userdata encoding round-trips", "statement": "Writing Picotron userdata in PXU form (either method) and reading it back gives the same data.", "quantifier": "for every data of matching size, any width/height and element values", "why_tests_cant": "Unbounded run lengths and index tables.", "anchors": ["picotron_fs.py:write_pxu", "picotron_fs.py:read_pxu"]}
{"id": "C39", "title": "Editing a POD export keeps it consistent", "statement": "On a pod file with nothing after its last entry, every history of insert/replace/delete/rename operations gives exactly what the same operations give on an ordered list of (name, content), is refused exactly where they make no sense on the list (or a size does not fit its field), and re-parsing the bytes gives that list; the carts of an export built on it behave as an ordered list of named carts while all other entries stay. Names are NUL-free and fit their field, only files carry names, and palettes are added only at the end (index 255 or the end of at most 255 entries); these exclusions are needed.", "quantifier": "for every operation sequence", "why_tests_cant": "Unbounded histories; offsets of all later entries shift.", "anchors": ["pico_export.py:PodFile", "pico_export.py:PodExport"]}
{"id": "C40", "title": "Editing an HTML/JS export keeps it consistent", "statement": "After any sequence of insert/replace/delete/rename operations with cart names free of commas and square brackets, the i-th name in the list corresponds to the i-th fixed-size block of data, exactly as for an ordered list of named carts; the other carts' data and all other text of the file are unchanged, and a change is refused exactly when the named cart is missing or the new name is taken.", "quantifier": "for every file with the two lists and every operation sequence", "why_tests_cant": "Unbounded histories.", "anchors": ["pico_export.py:JsExport", "pico_export.py:CartExport"]}
{"id": "C41", "title": "System ROM container round-trips", "statement": "A Picotron system ROM re-serialised after replacing entries parses to the same entries.", "quantifier": "for every entry list and replacement", "why_tests_cant": "Unbounded entries.", "anchors": ["picotron_export.py:SysRom"]}
{"id": "C42", "title": ".p64 text round-trips", "statement": "Saving a Picotron cart as .p64 text and loading it restores all file paths and contents, apart from documented exclusions.", "quantifier": "for every file set", "why_tests_cant": "All contents.", "anchors": ["picotron_cart.py:write_cart64_to_source", "picotron_cart.py:read_cart64_from_source"]}
{"id": "C43", "title": "Include expansion source map is exact", "statement": "After expanding #include lines, each character of the combined code maps back to the file and position it came from; code without includes is unchanged. Exactly the include lines that are in no comment and no string are expanded, and nothing else changes. Expanding ends exactly if every `[[` outside of comments and strings is closed and every file to include can be read.", "quantifier": "for every code text and include contents", "why_tests_cant": "All texts.", "anchors": ["pico_preprocess.py:preprocess_code", "pico_process.py:CartSource"]}
{"id": "C44", "title": "Reported line and column are exact", "statement": "The line, column (and tab) reported for any position equals the count of preceding newlines (tab breaks) and distance from the last one.", "quantifier": "for every text and position", "why_tests_cant": "All texts and positions.", "anchors": ["pico_process.py:Source.get_line_col", "pico_process.py:Source.get_tab_line_col"]}
{"id": "C45", "title": "Tab selection in includes picks the right tab", "statement": "Including tab n of a cart inserts exactly the text between the n-th and n+1-th tab breaks, and fails if there is none.", "quantifier": "for every code and tab number", "why_tests_cant": "All texts.", "anchors": ["pico_preprocess.py:trim_cart_to_tab"]}
{"id": "C46", "title": "Dependency ordering is a valid topological order", "statement": "Ordering items by dependency returns each item exactly once, dependencies before dependents, when there is no cycle.", "quantifier": "for every finite acyclic graph", "why_tests_cant": "All graphs.", "anchors": ["picotron_defs.py:topologic_sort"]}
{"id": "C47", "title": "Glob filters: exclusion wins", "statement": "A path is selected by a filter list iff some positive pattern matches and no negative pattern matches, regardless of order.", "quantifier": "for every pattern list and path", "why_tests_cant": "All lists.", "anchors": ["picotron_defs.py:Cart64Glob"]}
{"id": "C48", "title": "Merging sections touches only those sections", "statement": "Merging named sections from another cart copies exactly these sections' bytes and leaves all other bytes, code and label unchanged.", "quantifier": "for every section list and carts", "why_tests_cant": "All section lists and contents.", "anchors": ["pico_cart.py:merge_cart"]}
{"id": "C49", "title": "Picotron file metadata and payload are independent", "statement": "Setting a file's metadata leaves its payload readable and unchanged and vice versa, and each is read back as set.", "quantifier": "for every file content and metadata without the closing mark", "why_tests_cant": "All contents.", "anchors": ["picotron_fs.py:PicotronFile"]}
{"id": "C50", "title": "Token count does not depend on layout", "statement": "The token count is determined by the token sequence; commas, dots, colons, closers and 'end'/'local' are free and everything else costs one, except a unary minus glued to a number.", "quantifier": "for every token sequence", "why_tests_cant": "All sequences.", "anchors": ["pico_tokenize.py:count_tokens"]}
{"id": "C51", "title": "Version numbers round-trip", "statement": "Each known version id formatted as text and parsed gives the same id, and text for versions between known ones maps to the newest not newer one.", "quantifier": "for every known id and every version tuple", "why_tests_cant": "All tuples.", "anchors": ["pico_defs.py:format_pico8_version", "pico_defs.py:parse_pico8_version"]}
{"id": "C52", "title": "Binary primitives round-trip", "statement": "Fixed width, variable-length and zero-terminated values written by the binary writer are read back identically and consume exactly what was written.", "quantifier": "for every value and surrounding stream", "why_tests_cant": "All values.", "anchors": ["utils.py:BinaryWriter", "utils.py:BinaryReader"]}
{"id": "C53", "title": "Extended unicode escapes produce the right bytes", "statement": "The byte string for an extended unicode escape decodes (extended UTF-8, up to 2^31) to the escaped value and has the minimal length.", "quantifier": "for every value below 2^31", "why_tests_cant": "2^31 values.", "anchors": ["pico_tokenize.py:ext_unicode_to_lang_str"]}
{"id": "C54", "title": "A formatted string literal is one token", "statement": "Whatever follows it in the program, the literal produced for a string in any style is scanned as exactly one string token. (Fails for bracketed literals of strings ending in the beginning of their own closing bracket, such as \"a]\".)", "quantifier": "for every string value, option combination and following text", "why_tests_cant": "the failing strings are those whose end overlaps the chosen closing bracket; sampled strings rarely do", "anchors": ["pico_output.py:214-257", "pico_tokenize.py:545-656"]}
{"id": "C55", "title": "Code is stored in exactly PICO-8's layouts", "statement": "What the compressor writes is the code in PICO-8's documented layout (signature, big-endian lengths, items, padding), the reader accepts exactly the byte strings in one of the layouts and returns the one text they denote, and plain text is used exactly when the code is shorter than the code area and compression is not forced.", "quantifier": "for every byte string and every code", "why_tests_cant": "A writer and reader that share a wrong table or signature round-trip perfectly; only agreement with an independent format definition over all byte strings rules that out.", "anchors": ["pico_compress.py:compress_code", "pico_compress.py:uncompress_code", "pico_compress.py:k_old_code_table"]}
{"id": "C56", "title": "Picotron tiny ROM round-trips", "statement": "A program stored in the tiny ROM form (whichever of plain text, PICO-8 compression and LZ4 ROM is smallest) is read back as the same program.", "quantifier": "for every program", "why_tests_cant": "All programs; the three forms must be told apart by their first bytes.", "anchors": ["picotron_cart.py:write_cart64_to_tiny_rom", "picotron_cart.py:read_cart64_from_rom"]}
{"id": "C57", "title": "Label and sprite sheet images round-trip", "statement": "A label exported as an image and imported again is the same label (all 32 colours), and a sprite sheet exported and imported gives the same sprite memory with everything else as in an empty cart.", "quantifier": "for every label and every cart memory", "why_tests_cant": "All labels and all sprite memories; the colour lookup drops low bits, so it must be injective on the palette.", "anchors": ["pico_cart.py:write_cart_label", "pico_cart.py:read_cart_label", "pico_cart.py:write_cart_spritesheet", "pico_cart.py:read_cart_spritesheet", "pico_cart.py:k_palette_rgb_6bpp_map"]}
{"id": "C58", "title": "Replacing the cart in a Picotron web page", "statement": "Putting a cart into an exported page replaces exactly the digits of the page's first cart string, and reading the page then gives that cart.", "quantifier": "for every page text with a cart string and every cart", "why_tests_cant": "All page texts: earlier near-matches must neither be taken nor be created by the change.", "anchors": ["picotron_export.py:HtmlExport64"]}
{"id": "C59", "title": "Readable pods are read back unchanged", "statement": "Writing a pod (nil, booleans, integers, floats, strings, userdata, nested tables) as text and parsing the text gives the same pod with its table entries in the same order; the text is a Lua expression whose value is the pod; different pods have different texts.", "quantifier": "for every pod with integers above -10^18 and below 2^63, no key equal to true, no two equal keys and no nil entries in tables; nesting unbounded; floats abstract with their text assumed readable", "why_tests_cant": "All nested values and all strings; positional entries depend on the order of keys, names on the keyword list, digits after escapes on the next character.", "anchors": ["picotron_fs.py:format_pod", "picotron_fs.py:parse_pod", "pico_output.py:format_string_literal", "pico_output.py:format_luanum"]}
{"id": "C60", "title": "Picotron text and bytes", "statement": "Bytes of any kind, valid UTF-8 or not, are decoded to text that encodes to the same bytes; bytes that are UTF-8 are decoded to the characters they stand for; text of Unicode characters is encoded to UTF-8 and decoded unchanged; encoding fails exactly for surrogates that stand for no byte; ASCII characters separate the same parts in bytes and text.", "quantifier": "for every byte string and every text, unbounded length", "why_tests_cant": "The interaction of truncated, overlong and surrogate sequences with what follows them is unbounded; tests use valid UTF-8.", "anchors": ["pico_defs.py:encode_luastr", "pico_defs.py:decode_luastr"]}
{"id": "C61", "title": "Which programs are accepted, and how they are read", "statement": "The parser accepts exactly the token sequences that the grammar of Lua with the PICO-8 or Picotron additions allows (blocks, all statements, one-line `if`/`while` shorthands, function and table constructors, calls, operators with their precedence and associativity), and reads each as the tree that the grammar gives it, taking the longest reading where Lua does; no program has two trees. Two operators in a row group as in Lua's own parser.", "quantifier": "for every sequence of tokens of both languages, unbounded length and nesting", "why_tests_cant": "Programs nest without bound, and whether a token ends one construct or goes on another depends on unbounded context; tests see a few programs and cannot show that nothing else is accepted or read differently.", "anchors": ["pico_parse.py:parse_root", "pico_parse.py:parse_block", "pico_parse.py:parse_stmt", "pico_parse.py:parse_expr", "pico_parse.py:parse_core_expr"]}
{"id": "C62", "title": "Which declaration each name refers to", "statement": "For every program, each occurrence of a name is resolved as Lua's visibility rules say: a local is seen from the statement after its declaration to the end of its block (including the condition of `repeat ... until`), a local function sees itself, loop variables and parameters are seen by the body only, a method has a parameter `self`, the innermost and latest declaration wins, other names are globals of the `_ENV` visible there, names after `.`/`:` and in table constructors are keys. Each `goto` refers to the label of that name in the innermost enclosing block of the same function, or to none.", "quantifier": "for every syntax tree (any nesting of blocks, functions, loops, tables) and any list of names that are local from the start", "why_tests_cant": "Scopes nest without bound and the parser resolves names while parsing with several scopes open or pending at once; a test sees one nesting, the rules have to hold for all.", "anchors": ["pico_parse.py:Scope", "pico_parse.py:LabelScope", "pico_parse.py:parse_var", "pico_parse.py:parse_function", "pico_parse.py:parse_local", "pico_parse.py:parse_for", "pico_parse.py:parse_repeat", "pico_parse.py:late_resolve_labels"]}
{"id": "C63", "title": "A renamed program means the same", "statement": "Renaming the identifiers of a program (no special comments) changes nothing but names: the new text is read as the same tree with other names, every name refers to the same local declaration, `goto`s go to the same labels, globals and keys correspond one to one (different ones stay different, also when accessed as `_ENV.name`), preserved names stay, and new names are valid identifiers, not reserved and not built-in. Keys of `_ENV` that are preserved as members but not as globals are excluded (there the code is wrong).", "quantifier": "for every program the parser accepts, every set of preserved names, every order in which names are tried and every set of built-in names", "why_tests_cant": "Which names may be shared depends on scopes nested without bound, on shadowing and on every other name chosen; a wrong sharing shows only in programs with the right combination.", "anchors": ["pico_rename.py:rename_tokens", "pico_rename.py:compute_effective_kind", "pico_rename.py:collect_idents_pre", "pico_rename.py:update_idents", "pico_parse.py:parse_var"]}
{"id": "C64", "title": "A minified program means the same", "statement": "Minifying a program (parentheses, empty statements, call parentheses and table separators dropped, operators, numbers, strings and `then` replaced, line breaks only where shorthands need them; assignments not merged and shorthands not converted) gives a text that the parser reads, as a program with the same meaning: the same statements and expressions in the same structure, with parentheses kept wherever they cut off values, and literals of the same value. Programs that use shorthands in the ways shown as counterexamples are excluded.", "quantifier": "for every program the parser accepts and that is tidy, every version and focus option; for PICO-8 with the actual number and string formatters, for Picotron with any formatters that keep values", "why_tests_cant": "Whether a parenthesis, `;` or line break can go depends on what precedes and follows it at any nesting depth; wrong cases are rare combinations of shorthands, calls and line ends.", "anchors": ["pico_minify.py:minify_code", "pico_minify.py:minify_string_literal", "pico_output.py:output_node", "pico_parse.py:parse", "pico_parse.py:can_replace_with_unary"]}
{"id": "C65", "title": "The minified text of a PICO-8 program means the same", "statement": "The characters of a PICO-8 program are read as tokens with line numbers, parsed, minified and written as characters, with as little white space as possible. Reading and parsing those characters again gives a program with the same meaning as the original. Tokens written back are the tokens of the minified program, each on the line (relative to shorthands) it was printed on.", "quantifier": "for every source text (all bytes, comments and white space of any kind) that is a tidy program and whose strings are not among those that are written wrongly (C54), every option, and every way of keeping source tokens", "why_tests_cant": "The chain lexer, parser, minifier, writer, lexer, parser has to agree for every program; each test fixes one program, and the failures found (strings that end in a bracket) need a rare literal.", "anchors": ["pico_tokenize.py:319-708", "pico_parse.py:parse", "pico_minify.py:minify_code", "pico_output.py:need_whitespace_between", "pico_output.py:get_orig_wspace", "pico_output.py:output_node"]}
{"id": "C66", "title": "Making and undoing shorthands keeps the meaning", "statement": "With shorthand conversion on, `if` and `while` statements become one-line shorthands where the analysis allows it, calls of `print` become `?`, or all shorthands become long forms again, while the program is minified as usual. What is written is read back as a program that means the same as the original, where `?` is a call of `print`.", "quantifier": "for every program of plain Lua (no shorthands in the source) and every choice of what is made; for every program whose shorthands are all undone; and for every mixture of both in programs that satisfy the stated conditions; both languages, all options", "why_tests_cant": "Whether a statement may become a shorthand depends on everything around and inside of it: outer and inner shorthands, elses, the next line, the first token of its block. The five programs found to change their meaning each need a particular neighbourhood.", "anchors": ["pico_minify.py:analyze_code_for_minify", "pico_minify.py:minify_change_block_shorthand", "pico_minify.py:minify_change_print_shorthand", "pico_minify.py:minify_code"]}
{"id": "C67", "title": "Stored pods and their files are read back", "statement": "A pod that is stored (as text, with compressed userdata, LZ4 and base64 as chosen) is read back as the same pod, with its entries in the same order. Metadata is read back with the same entries, and a file made of metadata and a payload gives both back. Storing never fails but for sizes that do not fit into 32 bits, and LZ4 never makes a pod longer.", "quantifier": "for every pod whose strings stand for bytes and whose userdata are well-formed, all metadata, all options, all runtimes", "why_tests_cant": "Compressed userdata is spliced into text at a placeholder byte and found again by its signature: that no string, whatever its bytes, can be taken for either, and that no text can be taken for LZ4 or base64, is a claim about all contents.", "anchors": ["picotron_fs.py:write_pod", "picotron_fs.py:read_pod", "picotron_fs.py:format_meta_pod", "picotron_fs.py:parse_meta_pod", "picotron_fs.py:PicotronFile"]}
{"id": "C68", "title": "Unminifying keeps the meaning and removes shorthands", "statement": "Unminifying a PICO-8 program gives a text that is a program again, has no shorthand statements, and means the same as the original one.", "quantifier": "for every program text of characters below 256 that is tidy and has no `- -` without parentheses, no index that starts with a long-bracket string, no `;` that is needed before a parenthesis and none directly in the block of a short else; for all white space as indentation", "why_tests_cant": "Spaces are put between tokens by a rule that looks at two tokens only, shorthands are turned into long forms by dropping and adding tokens, and lines are broken anew: that no two tokens ever run together and that no statement goes on with the next one is a claim about all programs.", "anchors": ["pico_unminify.py:unminify_code", "pico_parse.py:Parser", "pico_tokenize.py:tokenize"]}
{"id": "C69", "title": "A program that is renamed and minified is the same program up to names", "statement": "Renaming the variables of a PICO-8 program, changing its shorthands, minifying it and writing it gives a text that is read as a program again; this program means what the original one means, where every name refers to the same declaration, global, key or label as before.", "quantifier": "for every tidy program text of characters below 256, every choice of preserved names and built-in names, every order and frequency of variables in the renamer, all options for shorthands, tokens and versions, and every way in which tokens are kept or modified", "why_tests_cant": "Renaming, removal of parentheses, shorthands, literals and white space act on one another: a new name must not run together with its neighbours, and a changed token must not change how names are resolved. That the whole chain from text to text is right for all programs cannot be sampled.", "anchors": ["pico_process.py:process_code", "pico_rename.py:rename_tokens", "pico_minify.py:minify_code", "pico_output.py:output_code", "pico_parse.py:Parser"]}
{"id": "C70", "title": "The linter warns about exactly what it should", "statement": "Linting reports, for every name in the program, a warning about duplicate, unused or undefined variables just if the rules of the documentation say so: in terms of which declarations are visible there by the rules of Lua, whether a local or global is read, assigned or changed anywhere, whether a global is assigned outside functions or in `_init`, and the options and `--$lint` names. No warning is given twice, and a program without warnings reads only defined globals, reads all of its locals, and hides none of them.", "quantifier": "for every program, all choices of options, of names in options and comments and of built-in names", "why_tests_cant": "The linter works with its own tables of scopes, depths and parents of nodes; that their combination agrees with the visibility rules for every nesting of blocks and functions, every use of `_ENV` and every order of declarations can't be sampled.", "anchors": ["pico_lint.py:lint_code", "pico_parse.py:Scope", "pico_parse.py:is_root_global_or_builtin_local"]}
{"id": "C71", "title": "Floating point literals of Picotron keep their value", "statement": "Digits with a point and perhaps an exponent, decimal or hexadecimal (or binary with less than 2^53 in all), are read as the IEEE number nearest to what they say (ties to even), or as infinity just if they are at least half a step above the greatest finite number. Every such number, including the smallest ones, zero and infinity, is written as a numeral that is one token, is no integer, and is read as the same 64 bits; distinct numbers are written differently; formatting never fails.", "quantifier": "for all digit strings and exponents, and for all finite or infinite floating point numbers without sign", "why_tests_cant": "There are 2^63 floating point numbers and the formatter shortens their decimals digit by digit until they would be read differently; that twenty digits, or twenty-four after the point, suffice for all of them is a matter of error bounds.", "anchors": ["pico_tokenize.py:parse_luanum", "pico_output.py:format_luanum", "pico_output.py:float_hex", "pico_output.py:float_str_minify"]}
{"id": "C72", "title": "The minified text of a Picotron program means the same", "statement": "A tidy Picotron program is minified with any options: the text that is written, whichever tokens are taken over from the source and whichever are new, is read as a program whose meaning is that of the original one: the same syntax tree up to the rewriting that minification does, with integers equal as 64 bits, floating point numbers equal as 64 bits and never mixed up with integers, and strings equal as characters.", "quantifier": "for all program texts in Unicode, all options and versions", "why_tests_cant": "Any program can be minified, and whether tokens run into one another, numbers change their kind, or a parenthesis is missed depends on arbitrary neighbours.", "anchors": ["pico_minify.py:minify_code", "pico_output.py:output_code", "pico_output.py:format_luanum", "pico_output.py:format_string_literal", "pico_tokenize.py:tokenize"]}
{"id": "C73", "title": "Renaming, shorthands and minification together keep the meaning of a Picotron program", "statement": "A tidy Picotron program is renamed, its shorthands are made or undone and it is minified, with any options: every new name is a name of Lua, and the text that is written is read as a program that is the original one up to names; every name in it refers to what it referred to before, labels and gotos match as before, and expressions, statements and literals mean the same.", "quantifier": "for all program texts in Unicode, all choices of names the renamer can make, all shorthand decisions, options and versions", "why_tests_cant": "Each step depends on what the previous one left; faults show only where a new name, a shorthand and a removed space meet.", "anchors": ["pico_process.py:process_code", "pico_rename.py:rename_tokens", "pico_minify.py:minify_code", "pico_output.py:output_code", "pico_tokenize.py:tokenize"]}
{"id": "C74", "title": "Replacing constant locals by their values keeps the behaviour of a program", "statement": "Constant folding is applied to a whole program with functions, closures, loops and recursion: locals that are never reassigned and have a constant value disappear together with their declarations, their uses are replaced by the value, expressions of constants are computed and branches never taken are removed. The program that is left, run in any environment (which may call functions of the program, such as _update and _draw, at any time), returns the same values, fails in the same cases, runs on for as long, and leaves globals, tables and messages in the same state. No use is left of a variable whose declaration was removed.", "quantifier": "for all programs, all environments consistent with the runtime's arithmetic, all arguments and any number of steps", "why_tests_cant": "Whether a variable may be replaced depends on every assignment to it anywhere in the program and on which instance each closure has captured; programs, environments and runs are unbounded.", "anchors": ["pico_constfold.py:fold_consts", "pico_constfold.py:erase_assign_targets", "pico_constfold.py:create_do_node_if_needed", "pico_parse.py:mark_reassign"]}
{"id": "C75", "title": "Merging local declarations keeps the behaviour of a program", "statement": "Consecutive local declarations are merged into one throughout a program with functions, closures, loops and recursion (`local a=1 local b=2` becomes `local a,b=1,2`), variables without a value going last. The merged program, run in any environment (which may call functions of the program at any time), returns the same values, fails in the same cases, runs on for as long and leaves globals, tables and messages in the same state. Where renaming has given several variables the same name, every use of a name still means the same variable.", "quantifier": "for all programs, all renamings and no-merge hints, all environments, all arguments and any number of steps", "why_tests_cant": "Merging changes the order in which variables come to life relative to calls, and closures may capture them; which of several variables of equal name is meant depends on the order of declarations. Programs, renamings and runs are unbounded.", "anchors": ["pico_minify.py:minify_merge_assignments", "pico_minify.py:node_contains_vars", "pico_minify.py:minify_code"]}
{"id": "C76", "title": "The minified program does the same when it is run", "statement": "Minified text, as written for a whole program after renaming, dropping parentheses, choosing shorthands and respelling numbers and strings, is read again as a program that returns the same values, fails in the same cases, runs on for as long and leaves globals, tables and messages in the same state as the original, where globals and keys go by their new names.", "quantifier": "for all program texts, all renamings, all options, all environments (which may call functions of the program at any time), all arguments and any number of steps", "why_tests_cant": "Programs, renamings and runs are unbounded, and a difference may show only in one environment, for one order of evaluation, or where an expression gives several values.", "anchors": ["pico_output.py:output_node", "pico_minify.py:minify_code", "pico_rename.py:rename_tokens", "pico_process.py:process_code"]}
{"id": "C77", "title": "A cart kept as a directory stays inside it and is read back", "statement": "Writing a Picotron cart to a directory changes nothing outside that directory (apart from creating the directories it lies in), whatever names the cart contains and whether or not writing succeeds. A cart whose names are proper and whose directories are listed is written completely and nothing else is left in the directory; reading a directory finds exactly its directories and the wanted files; reading what was written gives the cart back.", "quantifier": "for all carts (including those with `..` and absolute names), all file systems, all target paths, with and without deleting what was there", "why_tests_cant": "A hostile or odd cart may contain any names in any order; the file system it meets is arbitrary. Tests show only that some names are refused.", "anchors": ["picotron_cart.py:read_cart64_from_fs", "picotron_cart.py:write_cart64_to_fs", "picotron_cart.py:filter_cart64", "utils.py:dir_ensure_exists"]}
{"id": "C78", "title": "Merging carts takes the wanted files and lists their directories", "statement": "Merging one Picotron cart into another takes every wanted file of the source, leaves all other files of the destination as they are, and adds exactly the directories that are still missing above what was taken. If nothing is a file in one place and a directory in the other, the result can be kept as a directory again (C77), even when the source does not list its directories or the patterns leave them out.", "quantifier": "for all destinations that fit a directory, all sources with proper and distinct names in any order, all patterns", "why_tests_cant": "Names, nesting and patterns are unbounded, and whether a directory is still missing depends on all files merged before.", "anchors": ["picotron_cart.py:merge_cart64"]}
{"id": "C79", "title": "Removing metadata keeps contents and what is shown of a cart", "statement": "Removing metadata from the files of a Picotron cart (as minifying does by default) keeps the contents of every file and whether it is raw or a pod, and leaves exactly the entries whose keys match, with the format and type along with them. Files go only if they are `.info.pod` and nothing is to be kept of them. The title, icon, home and version shown of the cart stay the same.", "quantifier": "for all carts, all metadata that can be stored (C67), all patterns of files and keys", "why_tests_cant": "Metadata and patterns are unbounded; the bytes are rewritten and must be read back by the same rules, also when all entries but the format are dropped.", "anchors": ["picotron_cart.py:preproc_meta", "picotron_cart.py:preproc_cart64", "picotron_cart.py:Cart64.title", "picotron_cart.py:Cart64.icon"]}
{"id": "C80", "title": "Merging the local declarations of a syntax tree keeps what the program does", "statement": "When consecutive local declarations of a program are merged on its syntax tree, in all blocks and functions, the resulting tree - read by the language's rules about which declaration a name refers to, with names that may hide each other in any way - does the same when it is run as the original: same results, same effects, failing or running on alike. This also holds after parentheses, literals and shorthands have been minified, and for the text that is finally written, with or without renamed variables, when it is read again.", "quantifier": "for all syntax trees in which no `local x=f()` stands right before a `local y` without values, all hints, all worlds, arguments and numbers of steps; for written text, all tidy PICO-8 and Picotron programs in which moreover no `local y` without values stands before a statement that begins with a parenthesis", "why_tests_cant": "Names can hide each other in unboundedly many ways, the order of declarations changes, and the effects of the program on its world are arbitrary.", "anchors": ["pico_minify.py:minify_merge_assignments", "pico_minify.py:minify_code", "pico_minify.py:node_contains_vars"]}
{"id": "C81", "title": "A cart keeps its title when its code is replaced", "statement": "The title of a cart is the text of the comments on the first two lines of its code, unless it was given a title of its own. When the code is replaced, for instance by minified code without comments, the cart has the new code and shows the same title as before, however often this happens, and nothing else of it changes; code with the same title leaves no trace in the metadata. The title also survives saving as .p8 and loading. A title that the user asks for is the one shown.", "quantifier": "for all carts, titles without carriage returns, and sequences of replaced code; for saving, titles that have no line like a section header, and empty ones only if the new code has no title either", "why_tests_cant": "Titles may have any of 256 characters in any position, converted to Unicode, split at what Python takes for line ends and converted back; a test covers a few titles.", "anchors": ["pico_cart.py:Cart.title", "pico_cart.py:Cart.set_raw_title", "pico_cart.py:Cart.set_code_without_title", "pico_process.py:CartSource.text"]}
{"id": "C82", "title": "Files are recognised as what they were written as", "statement": "Loading a file without naming its format gives what was saved: .p8 carts, code with and without the section header, PNG images, clipboard text and URLs are each recognised as such, with any white space after the latter two; and a cart or code file is read the same whether the format is named or recognised, also with CRLF line ends. Text files are the UTF-8 bytes of the text, and are never taken for images.", "quantifier": "for all carts, code, images, ROMs and trailing white space; carriage returns only before line feeds; code that does not end with a line end and begins with none of the four prefixes", "why_tests_cant": "Recognition depends on the first characters of arbitrary content after decoding arbitrary bytes; tests show single files.", "anchors": ["pico_cart.py:read_cart_autodetect", "pico_cart.py:read_cart", "pico_cart.py:write_cart", "pico_cart.py:write_cart_to_raw_source", "utils.py:file_read_text", "utils.py:file_write_text"]}
{"id": "C83", "title": "Picotron files are recognised as what they were written as", "statement": "Loading a Picotron file without naming its format gives what was saved: .p64 files, ROM files (below 16 MB) and code are recognised and read back, and exactly the files that begin like a PNG image are taken for images. A ROM file is recognised exactly if its version or a byte of its size is zero. A file loaded as a single pod and saved as one is unchanged if it has no metadata (it gets some in between) or has metadata other than just `pod`, and the pod stays the same when it is loaded again.", "quantifier": "for all carts C42 and C34 allow, all code without NULs that begins neither like a cart nor like an image, and all pods", "why_tests_cant": "Recognition depends on the first bytes of arbitrary content, among them the size of the compressed data.", "anchors": ["picotron_cart.py:read_cart64_autodetect", "picotron_cart.py:read_cart64_from_single_pod", "picotron_cart.py:write_cart64_to_single_pod"]}
{"id": "C84", "title": "A minified file is the same cart and does the same", "statement": "When a .p8 file is processed from beginning to end (recognised, loaded, its code minified, saved as .p8), the file that was written is recognised and loaded as a cart with the same memory, label, version, title and other metadata, and whose code does the same whenever it is run, with any arguments and in any world. With renaming and merging of declarations every global and every key has its new name. Saving always succeeds. Saved as a ROM instead, memory, version and the new code are read back.", "quantifier": "for all .p8 files whose cart can be saved (C13, C14), whose code is tidy in the sense of C66, C69 and C80, and whose minified code has no line that looks like the header of a section; for all executions of the code", "why_tests_cant": "It is the guarantee a user of the whole tool relies on: it depends on the interplay of reading, parsing, minifying, printing and writing for arbitrary programs and arbitrary executions.", "anchors": ["run_shrinko.py:main_inner", "run_shrinko.py:handle_processing", "run_shrinko.py:handle_output", "pico_process.py:process_code", "pico_cart.py:read_cart", "pico_cart.py:write_cart"]}
{"id": "C85", "title": "Exported programs get the label as their icon, and nothing else of them changes", "statement": "The icon file made for macOS programs is a valid icon file that shows exactly the given pixels, and no other image can be read from it. In a Windows program the position that is changed is that of the pixels of its English icon number 1 of 128 by 128 pixels; in a proper program such an icon is always found, and the exported program differs from the original one only in these pixels, which are the given ones. The text searched in a program is the first NUL-terminated string with both parts.", "quantifier": "for all images of 128 by 128 pixels with three or four bytes, all Windows programs (32 and 64 bits, any sections and resources), and all data", "why_tests_cant": "The position is found by following offsets through headers, sections and directories of arbitrary files; a test has one program.", "anchors": ["pico_export.py:FullExportBase.create_icns_data", "pico_export.py:FullExportBase.find_icon_offset_in_exe", "pico_export.py:FullExportBase.find_zstr", "pico_export.py:FullExport.save"]}
{"id": "C86", "title": "A new export has PICO-8's resources, the title, the label and the given carts", "statement": "An export that is created from PICO-8's own data file has three files without a name: PICO-8's boot cart, which is unchanged but for its version, which is that of the exported cart; PICO-8's pod of pictures, in which only the title (ended by a zero) and the label picture are replaced; and PICO-8's other pod, unchanged. All of them can be read again. Carts put into it are listed, in their order, under their names, each reads back as given, and these three files stay as they are. It is made whenever the title is shorter than its picture.", "quantifier": "for all data files with a boot cart that can be saved and two pods of at most 255 entries, all titles, labels of 128 by 128 pixels, versions, and lists of carts with different names", "why_tests_cant": "The resources are whole files inside files, taken apart and written again entry by entry; a test has one data file (which is not free) and one cart.", "anchors": ["pico_export.py:PodExport.create", "pico_export.py:PodFile.find_named", "pico_export.py:PodFile.append_content", "pico_export.py:PodExport.insert_impl"]}
{"id": "C87", "title": "Processing a Picotron cart changes the code of the selected files and nothing else", "statement": "When a Picotron cart is minified, the code that is worked on is that of the files that hold text (no pods, no directories) and are selected by the patterns given, or whose names end with .lua if none are given. The result has all the files of the cart in the same order: those are left with their metadata and the new code, every other file is exactly as before. Processing fails only if the code has errors. The result can be saved and loaded. Filtering a cart keeps exactly the selected files.", "quantifier": "for all carts, patterns, and ways to process code; the new code of a file without metadata must not look like metadata", "why_tests_cant": "Which files are touched depends on arbitrary paths, patterns and contents; tests have a few files.", "anchors": ["picotron_defs.py:Cart64Source", "picotron_defs.py:Cart64Glob", "picotron_cart.py:filter_cart64", "pico_process.py:process_code", "picotron_fs.py:PicotronFile.raw_payload"]}
{"id": "C88", "title": "A run writes exactly the outputs that were asked for, or nothing if a cart has errors", "statement": "If a run reports success, every cart was read without errors (and, with --lint, without warnings, unless these are told not to matter), and every output that was asked for was written, in order, in the right format, with all carts, minified or unminified as asked for (if no script complains). If any cart has errors, or warnings that should end the run, nothing is written and success is not reported. If a run fails, only outputs before one that cannot be written were written. Nothing else is ever written: in particular the input is not, unless the run is in place or the input was also given as an output; in place, only the input is written. Without options that change the code, it is not changed. If the options are accepted, the carts have no errors and the outputs can be written, the run succeeds.", "quantifier": "for all options, carts, formats, files, and all ways to read, check, change and write carts", "why_tests_cant": "There are dozens of options in any combination, and any number of carts and outputs, each of which may fail; tests check a few command lines.", "anchors": ["run_shrinko.py:main_inner", "run_shrinko.py:handle_processing", "run_shrinko.py:handle_output", "run_shrinko.py:default_format", "pico_process.py:process_code"]}
{"id": "C89", "title": "Storing pods anew keeps a Picotron cart the same", "statement": "When a Picotron cart is processed, its pods are stored anew (compressed, uncompressed or in base64). The cart keeps all its paths in the same order; raw files and directories are not touched; every other file keeps its metadata, byte for byte, and the same pod is read from it. Doing it again changes nothing. It fails only for pods that cannot be read or are too long for LZ4. Taking the label out of the files (as for PNG carts) keeps it as the label of the cart, and keeps exactly the other files.", "quantifier": "for all carts, pods (with all values that Picotron has, as in C67) and options", "why_tests_cant": "Pods are trees of any depth with any strings and userdata, and there are eight combinations of options; tests have a few pods.", "anchors": ["picotron_cart.py:preproc_cart64", "picotron_cart.py:Cart64.label", "picotron_fs.py:PicotronFile.set_payload", "picotron_fs.py:write_pod", "picotron_fs.py:read_pod"]}
{"id": "C90", "title": "Constants given on the command line have the value they have in Lua", "statement": "The text given with --const for a name is accepted if it is nil, true, false, a number with an optional sign (- or, in PICO-8, ~) or a string in quotes, with any white space around, and the name gets the value that this text has in Lua. Anything else but a single constant is refused with an error. The text given with --str-const is taken as it is. Of several values for a name the last one is taken, strings first. Every number the tool writes can be given.", "quantifier": "for all texts, both languages, and all lists of options; the values of Picotron floats are left open", "why_tests_cant": "The texts are arbitrary; tests give a handful of constants.", "anchors": ["pico_constfold.py:parse_constant", "pico_constfold.py:const_from_token", "pico_tokenize.py:Token.parsed_value", "run_shrinko.py:--const", "run_shrinko.py:--str-const"]}
{"id": "C91", "title": "Data that a script puts into a string of the code is what the string denotes", "statement": "A script can replace a marker in the code by the text that bytes_to_string_contents makes of any binary data. If the marker is the whole of a string in double quotes, and nowhere else, then the new code has the same tokens as before except for this string, which becomes one string token that denotes exactly the data.", "quantifier": "for all data, code, markers and both languages", "why_tests_cant": "Data is arbitrary, and so is the code around it; tests try a few bytes.", "anchors": ["pico_utils.py:bytes_to_string_contents", "README.md:Custom Scripts", "pico_output.py:format_string_literal"]}
{"id": "C92", "title": "Aliases of hint comments are abbreviations", "statement": "A hint comment's name and arguments are read as written, whatever white space is around them. After --$def-alias: a = t p, the hint 'a args' is read as 't p args' was before the definition, also when t is an alias itself; after any sequence of definitions, a hint is read as the name it finally stands for, with the arguments of all aliases on the way before its own, separated by single spaces. A new alias changes no other hints but those that end in its name. If no definition makes a name stand for itself, reading always ends; if one does, using that name never ends.", "quantifier": "for all sequences of definitions, names, arguments and white space", "why_tests_cant": "Definitions can be chained and redefined in any order, and termination over all sequences is not observable in finitely many runs.", "anchors": ["pico_tokenize.py:split_hint_args", "pico_process.py:ContextBase.map_aliases", "pico_process.py:ContextBase.add_custom_alias", "README.md:def-alias"]}
{"id": "C93", "title": "Walking the syntax tree follows the code, and editing it loses no comments", "statement": "From any token or node of the syntax tree, also one that is empty, next_token, prev_token, first_token and last_token give the tokens that are there in the order of the code. Removing a child by its index, or erasing a node, removes just its tokens and keeps all comments in their order, except for hints of the removed part that have been used up. Replacing a node by another keeps the tokens and comments around it, all comments of the new one, and all of the old one that are not in it, each once.", "quantifier": "for all trees with distinct tokens, places in them, children and replacements", "why_tests_cant": "Trees have any shape, with empty nodes anywhere and no token left in some direction; a test covers a few shapes.", "anchors": ["pico_tokenize.py:TokenNodeBase._find_token", "pico_tokenize.py:TokenNodeBase.find_or_create_token", "pico_parse.py:Node.remove_child", "pico_parse.py:Node.replace_with", "pico_parse.py:Node.erase"]}
{"id": "C94", "title": "The trace of the compression shows the code and what each part costs", "statement": "With --trace-compression, the file written is a CSV file with one row for each part that the code is compressed as. The second cells together are the code as Unicode, whatever characters it has; the third cell is there for copies and says offset and count. The first cell is the number of bits that the part takes, and these add up to the size of the compressed code.", "quantifier": "for all code, and all ways to divide it into characters, blocks and copies", "why_tests_cant": "The code may have quotes, commas and line ends anywhere, and copies may overlap themselves; tests do not read the file.", "anchors": ["pico_compress.py:CompressionTracer", "pico_compress.py:compress_code", "utils.py:BinaryBitWriter.bit_position"]}
{"id": "C95", "title": "The report of sizes shows whether a limit is exceeded", "statement": "With --count, each line that is printed has a label, the size, and the percentage of the limit it takes, rounded to the nearest percent, and from 95 percent on to the nearest hundredth. The percentage shown is over 100 exactly if the size is over the limit.", "quantifier": "for all sizes, limits and labels", "why_tests_cant": "Rounding could hide a size just over the limit; tests do not try every size around each limit.", "anchors": ["pico_compress.py:print_size", "pico_compress.py:print_code_size", "pico_compress.py:print_compressed_size", "pico_process.py:print_token_count"]}
{"id": "C96", "title": "A cart of the BBS is asked for by exactly the id that was given", "statement": "With --bbs, an id that starts with # becomes an address of visible ASCII characters, from which a server reads two parameters: lid, which is the text after the # in UTF-8, whatever characters it has, and cat, which is 7 for PICO-8 and 8 for Picotron. Different ids or languages have different addresses. Other ids are refused.", "quantifier": "for all ids and both languages", "why_tests_cant": "An id may have characters that separate the parts of an address; tests use a few plain ids and no test asks the server.", "anchors": ["pico_cart.py:get_bbs_cart_url", "run_shrinko.py:main_inner"]}
{"id": "C97", "title": "Errors and warnings are all printed, with their place, in order", "statement": "Each error or warning is printed once, as a line with the path, the line and column where it is (counted from one) and its message. Those of one file are together, sorted by line and column; those at the same position are in the order in which they were found.", "quantifier": "for all lists of errors, sources and positions", "why_tests_cant": "Tests look at a few errors of single files, found in order already.", "anchors": ["pico_process.py:Error", "run_shrinko.py:handle_processing"]}
{"id": "C98", "title": "Files of a Picotron cart are processed after the files that they include", "statement": "For a Picotron cart with several code files, each file is processed once. Unless files include themselves, directly or not, a file that is included by a constant path is processed before the files that include it. Calls of include with other arguments or paths make no difference.", "quantifier": "for all carts, whatever files include whatever files", "why_tests_cant": "Any graph of includes is possible; tests have a few files.", "anchors": ["picotron_defs.py:sort_root", "picotron_defs.py:topologic_sort"]}
