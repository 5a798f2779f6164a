# Formal model of shrinko8

Language: Lean 4 (4.33.0).  Project: `lean/` (`lake build`).  Source being modelled: `/repo`
(thisismypassport/shrinko8 at the pinned commit), read as text only.

## Layout

* `Verif/<Area>.lean`  – the model: one definition per source function (or inner
  function / loop), each with a comment giving file and lines and any simplification.
* `Verif/<Area>Lemmas.lean` – helper lemmas.
* `Verif/Props/<Area>.lean` – small independent specifications and the property theorems, each followed
  by `example`s that a concrete non-trivial case meets the hypotheses, and by witnesses for
  excluded cases (`..._counterexample`).

`MANIFEST.json` maps each property of `properties.jsonl` to the exact theorem names.
`seeded/LOG.jsonl` records mutation tests of the model.

## Modelling conventions

* Python `int` → `Nat`/`Int` (unbounded) – masks are explicit; P8SCII strings/bytes → `List Nat` or
  `List (Fin 256)`/`List Char` as stated in each module; exceptions (`throw`, `assert`, `IndexError`, …) →
  `none`/`Except`; loops → structural or well-founded recursion (fuel only where the loop in the source may not
  terminate or is easier so; then a theorem says the fuel suffices).
* Python floats are modelled as IEEE in C71 only; elsewhere, where the code uses floats on exactly representable values the model
  uses exact rationals/integers and says so.

## Trusted base

* The Lean 4.33.0 kernel.  `decide +kernel` is used on closed finite statements; it is checked by the kernel, the
  compiler is not involved.  `native_decide`, `bv_decide`, `sorry`, own axioms, `unsafe`, `implemented_by` occur nowhere.
* Axioms: every theorem named in `MANIFEST.json` depends on no axioms other than `propext`, `Quot.sound` and
  `Classical.choice` (see "Axioms" below for the theorems that need fewer).
* The hand translation of the Python source into the definitions under `Verif/` (each cites file and lines), and of the
  English statement in `properties.jsonl` into the theorem.  The mutation log `seeded/LOG.jsonl` tests the second.
* The independent specifications in `Verif/Spec/` (and the small ones at the top of the `Props` files): they are what the
  theorems mean, and are to be read together with the statement.

## What is modelled, and what is not

Modelled, function by function (lines in the comments of the definitions):

| source | modelled |
|--------|----------|
| `pico_compress.py` | everything but the debug statistics: bit streams, move-to-front, the three code layouts, size computation, `get_lz77` with all its modes, both writers |
| `pico_cart.py` | ROM, tiny ROM, image, label and sprite sheet, `.p8` text, URL, clipboard, section merging |
| `pico_defs.py` | `Memory`, addresses, character set, `fixnum`/`luaint`, versions |
| `pico_tokenize.py` | tokenizer for both languages, token count, number (also floating point) and string parsing |
| `pico_output.py` | number (also floating point) and string formatting, whitespace decision, token output |
| `pico_parse.py` | expression parser with precedences, scopes; the parser of whole programs; name resolution of whole programs |
| `pico_constfold.py` | operator tables, `and`/`or`/`not`, if folding, erasing constants; constant propagation over whole programs (without `goto` and global constants) |
| `pico_rename.py` | identifier generator, usage graph, name selection, preserve rules, renaming of whole programs |
| `pico_minify.py` | `minify_code` for both languages, shorthands, assignment merging, string literal choice |
| `pico_unminify.py` | everything |
| `pico_lint.py` | `lint_code` for locals and globals |
| `pico_preprocess.py` | includes, tab selection, source map |
| `pico_export.py` | `CartExport`, `JsExport`, `PodFile`, `PodExport`, LZ4 |
| `picotron_cart.py`, `picotron_fs.py`, `picotron_export.py` | ROM, tiny ROM, image, `.p64` text, readable pods, userdata compression, file metadata, system ROM, web page |
| `utils.py` | binary readers/writers, text splitting, topological sort, glob filters |

Parameters of the model (the theorem holds for all of them): sha1, `fnmatch`, file access of includes, the cost
function of the match finder, the meaning of calls/tables/operators in programs, lines of metadata pods.

Not modelled: PNG, QOI, zip and zlib coding; the file system; parsing the command line (what a run does with its options is C88);
what user scripts do; the texts of lint messages (how they are printed is C97); IEEE floats outside numerals (where the code uses floats on exactly representable values the model uses exact rationals and a
lemma or comment says why); the native/zip exports (`FullExport`) apart from icons and executables (C85) and their carts; sublanguages; Python's Unicode tables outside what is
cited; memory and time limits of Python.

## Plan per property

| id | modelled | proof |
|----|----------|-------|
| C01 C03 C04 C05 | bit writer/reader, mtf, writers of compress_code, the new-format branch of uncompress_code | simulation: writer bits appended = reader bits consumed, induction over items |
| C02 | get_lz77 with arbitrary cost functions and hash-chain dictionaries | loop invariant: emitted items expand to a prefix |
| C06 | old format writer/reader | induction over items |
| C07 C08 | raw layout, get_compressed_size | direct |
| C09 C10 C11 | ROM layout with abstract code codec and hash function as parameters | list slicing |
| C12 | Memory | list set/get laws, bit arithmetic |
| C13 C14 C15 | p8 text writer and reader state machine; documented text format as specification | per-section line lemmas, then whole file |
| C16 | charset table and conversion functions; P8SCII table as specification | table checked by `decide +kernel`, induction on string |
| C17 | literal formatting and parsing; denotation of literals as specification | induction on string and on denotation |
| C18 C19 C20 | number formatting/parsing over exact arithmetic; what a number literal denotes (`Spec/NumLit`) | arithmetic |
| C21 C22 C23 | constant folding operators | against BitVec/Int specification |
| C24 C25 | small evaluator of expressions with multiple results | case analysis; negation for the known bug |
| C26 C27 C28 C29 | identifier generator, colouring loop, scope model, rule mapping; names and reserved words of Lua (`Spec/LuaWords`) | invariants over the loop |
| C30 | tokenizer on token/whitespace strings | maximal munch locality argument |
| C31 | precedence-climbing parser, printer, paren remover | induction on trees |
| C32 | store semantics of assignments, merge | small evaluator |
| C33 | lz4 | induction over blocks |
| C34 C41 C42 C49 | picotron containers | parse/print |
| C35 C36 C37 | image, url, clip codecs | bit arithmetic / induction |
| C38 | pxu | induction |
| C39 C40 | pod and js export editing | refinement to ordered list |
| C43 C44 C45 | preprocess, location, tabs | induction on text; the top level of code is `Spec/Top.lean`, its pieces are the iterations of the loop (`Props/PreprocessTop.lean`) |
| C46 C47 C48 C50 C51 C52 C53 | remaining pure helpers | direct |
| C54 | scanning of one literal by the tokenizer | induction; exact condition for bracketed literals |
| C55 | compressor and decompressor of code | against the layouts of `Spec/CodeFormat.lean` |
| C56 | Picotron tiny ROM | composition of C01, C33, C34 |
| C57 | label and sprite sheet images | pixel arithmetic |
| C58 | cart text inside an exported page | text splitting |
| C59 | readable pods: formatter, tokens, parser; grammar of pods as specification | mutual induction on the value |
| C60 | Picotron strings: the UTF-8 codec with `surrogateescape`; independent description of UTF-8 | strong induction on the bytes |
| C61 | the whole parser (statements, blocks, shorthands, expressions) over tokens with lines; independent grammar of Lua with the PICO-8/Picotron additions | soundness by induction on the recursion bound with an invariant for the operator loop; completeness by induction on derivations; unambiguity follows |
| C62 | name resolution while parsing: scopes, pending scopes, label scopes, the implicit `self`, `print` and `_ENV`; independent recursive specification of visibility after the Lua manual | structural induction over trees with composable statements about runs of the machine |
| C63 | what the renamer collects from a parsed tree (uses, implicit names, preserved names, keys of `_ENV`) and how new names are written back; rename hints, names in strings, `table.name` rules and `members_as_globals` are left out | the assumptions of C28 are proved for parsed programs; then the renamed tree is resolved again and compared with the original by C62; texts by induction over the grammar of C61 |
| C64 | `minify_code` on whole trees and `output_node` as tokens with line numbers; merging of assignments (C32), shorthand conversion, sublanguages and kept comments are left out, as is white space on a line (C30); floats of Picotron are a parameter | trees that can be printed and parsed again are characterised (`Fine`), parsed tidy trees are fine, minifying keeps them fine, printing a fine tree gives a text of the grammar of C61 with that tree; meaning by induction against an independent normal form |
| C65 | the main loop of `tokenize` with the line of each token (`lexLines`), the tokens as terminals of the grammar of C61 (`kOf`), the writer of C30 applied to the printed tokens of C64 with their line breaks; which tokens are modified, and where the unmodified ones stand in the source, is a relation (`Renders`) rather than a function | every token of the minified tree is one of the source, a fixed one or a formatted literal (induction over grammar derivations and trees), each of these is read as itself, so C30 applies to the written text; line breaks are counted along the separators; then C64 |
| C66 | the analysis which statements may become shorthands (`allow_parent_shorthands`, `allow_child_shorthands`, `analyze_node_post`) as two summaries, of what is around (`Pc`) and of what is inside (`Sm`); the conversion itself in one pass with the minifier (`wB`), as in the code; the counts behind `new_shorts` are parameters | the pass is shown to be conversion (`kB`) followed by the minifier of C64; conversion keeps trees fine (invariant over what is around, what is inside and what follows on the line) and keeps the meaning up to `?`; then C64, C65 |
| C67 | `write_pod` and `read_pod` on top of the models of C59, C60, C38, C33, C36; the placeholders and the search for signatures byte by byte; `format_meta_pod`, `parse_meta_pod` | a pod's text as pieces with gaps for the userdata: every piece is read back from its bytes whatever follows (`Solid`), and has no byte 0, so that the first 0 is the first placeholder, and the first signature is the first gap; `escape_meta` on the text of a pod changes only its literals, into literals of the same value |
| C68 | `unminify_code`: the tokens, added keywords and white space that it puts out, and its rule for spaces (Verif/Unminify.lean) | the output is a chain of tokens of which each is told from the next one (`put_read`, `cB`); its tokens are those of the tree without shorthands and empty statements (`kB`), which can be printed and parsed again (C64); without shorthands the lines of the tokens do not matter (`program_re`) |
| C69 | the chain `process_code`: read, rename (C63), shorthands (C66), minify (C64), write and read (C65) | being tidy does not depend on names (`tidy_s`); the tokens of the renamed tree are those of the tree but for names that are identifiers (`alB`, `node_name`); then C63, C64/C66 and C65_tokens |
| C70 | `lint_code` for locals and globals, on the nodes of name resolution (C62), with the parents and depths it looks at | specification: `LuaUses` (how each name is used, from the syntax tree and the visibility rules) and `LuaLint` (the rules); the nodes are shown to be the occurrences (`vsites_at`), lookups at a node to be what is visible there (`vsites_good`), and the collected sets to be the properties of the rules (`custom_iff` …) |
| C71 | floating point numbers as 64 bits, reading with correct rounding, `%.24f`/`%.19e` and shortening, `float_hex` in both forms, choice of the shortest | specification: `Spec/Double.lean` (IEEE value and nearest number); error bounds (`nearest_eq`) for decimals, exactness for hexadecimals, and C20 for shortening |
| C72 | the configuration of `minify_code` for Picotron with C17, C19 and C71 as formatters, and the tokenizer and output of C65 | C64 with this configuration; every token that is written is a token on its own (`tron_step`), then C65's argument about neighbours |
| C73 | the pipeline of C69 with the configuration of C72 | C63 for names, C66 for shorthands and minification, C65 for the text; new names are identifiers of Lua by C26 |
| C74 | `fold_consts` over whole programs with functions, loops and closures (`FoldProg.lean`), run by a definitional interpreter for Lua with an arbitrary environment (`Spec/LuaCore.lean`) | the constants of all declarations are collected (every declaration is a variable of its own, reassigned ones have none); a simulation between the two runs in which closures are related by being folded forms of each other; static conditions (`Spec/LuaStatic.lean`) imply what the simulation needs; no goto |
| C75 | `minify_merge_assignments` for locals over whole programs (`MergeProg.lean`), with the names after renaming and the no-merge hints as parameters; semantics of C74 | merging is a chain of single merges, each a congruence rule of a relation between programs (`MergeProgRel.lean`); a merge changes the order in which instances are made, so runs are related up to a bijection of instances (`MergeProgSim.lean`, `MergeProgRun.lean`); scoping by variable and by name (`Spec/LuaNames.lean`) along the chain |
| C76 | the meaning of syntax trees as programs of the semantics of C74 (`Spec/LuaElab.lean`, independent of the code); the texts and trees of C65–C73 | elaboration of the normal form does the same as that of the tree (`CoreSame.lean`, `ElabNorm.lean`), shorthands elaborate alike (`ElabPrint.lean`), every elaborated program is well scoped (`ElabScoped.lean`), literals are read as in C17–C19 (`ElabLit.lean`), a renamed tree elaborates to the same program when occurrences correspond as in C63 (`ElabRename.lean`); goto is an unexplained operation |
| C77 | reading and writing of cart directories (`CartDir.lean`) over a file system that maps paths to directories and files | `Spec/CartDir.lean` says which carts fit a directory and which places are free; safety by induction over the recursion of writing (`CartDirWrite.lean`), exactness of reading and writing by invariants of the visited subtrees (`CartDirRead.lean`) |
| C78 | `merge_cart64` (`CartMerge.lean`) | `Spec/CartMerge.lean` says which files the result has; induction over the merged files with the invariant that directories are listed (`CartMergeLemmas.lean`) |
| C79 | `preproc_meta`, the attributes of carts and `preproc_cart64` for metadata (`CartMeta.lean`), on bytes with the formats of C67 | `Spec/CartMeta.lean` says which entries are kept; by C67 and C49 for what is written, induction over entries and files (`CartMetaLemmas.lean`) |
| C80 | `minify_merge_assignments` and the traversal of `minify_code` on syntax trees (`MergeTree.lean`), deciding as in C75 | names are resolved by `Spec/LuaElab.lean` before and after; induction over the tree with a renumbering of the declarations (`MergeTreeLemmas.lean`, `MergeTreeMain.lean`), which does not matter when the program is run (`CoreAlpha.lean`); then C75 and C76; written text: what printing assumes is kept by merging (`MergeTreeFine.lean`, `MergeTreeTokens.lean`, assuming `Spec/MergeQuiet.lean`), then as in C66, C69 and C73 |
| C81 | `Cart.title`, its setter, `set_raw_title`, `set_code_without_title` (`CartTitle.lean`) | the title of code by `Spec/CartTitle.lean`; the lines kept are the title's, since no character but two is shown as a line end (table of 256), and C16 reads each line back; saving by C14 |
| C82 | `read_cart_autodetect`, `read_cart`, the text files of `write_cart`, `write_cart_to_raw_source`, `file_read_text`, `file_write_text` (`AutoDetect.lean`): which reader is called with what | UTF-8 by `Spec/Utf8.lean` (C60); the first character tells the prefixes apart; lines with CRLF by induction over the text; the readers by C13, C14, C37 |
| C83 | `read_cart64_autodetect` for files, `read_cart64_from_single_pod`, `write_cart64_to_single_pod` (`AutoTron.lean`) | the first bytes of each format tell them apart, the form of ROMs by `Spec/Ptron.lean`; reading back by C42 and C34; pods by the layout of metadata in `PtFileLemmas.lean` |
| C84 | the path of one `.p8` file through `main` (`EndToEnd.lean`) | recognising and reading back by C82 and C13, the title by C81, the program by C76 and C80, ROMs by C09 |
| C85 | `create_icns_data`, `find_icon_offset_in_exe`, `find_zstr`, replacing the icon in `FullExport.save` (`Icons.lean`) | `Spec/Icons.lean` describes the icon format with its packing, the headers, sections and resource directories of Windows programs, and NUL-terminated strings; the loops are followed by induction |
| C86 | `PodExport.create`, `find_named` (`NewExport.lean`), on top of `PodFile.lean` and `P8Source.lean` | `Spec/NewExport.lean` says what becomes of each picture; the loops over entries and characters by induction, each step by C39; the boot cart by C13 and `C82_file` (saved carts are always Unicode text) |
| C87 | `Cart64Source`, `filter_cart64`, the loops of `process_code` over the files (`SrcFiles.lean`); what is made of the code is a parameter | `Spec/SrcFiles.lean` says which files hold code; patterns by C47, payloads and metadata by C49, text by C60, saving by C42 |
| C88 | `main_inner`, `handle_input`, `handle_processing`, `handle_output`, `default_format` and `process_code` (`MainFlow.lean`) for any carts and formats | `Spec/MainFlow.lean` says what is asked for in terms of the options as given; the steps that rewrite the options are shown to agree with it, then cases |
| C89 | the rest of `preproc_cart64` and `Cart64.label` (`Repack.lean`), on bytes with the formats of C67 | `Spec/Repack.lean` says when files are the same to a program; by C67 (pods) and C49 (payloads), induction over the files |
| C90 | `const_from_token`, `parse_constant`, the options `--const` and `--str-const` (`GivenConst.lean`), with the tokenizer of C30 and the literals of C17-C19 | `Spec/GivenConst.lean` says what a written constant is worth; by C18, C19, C17 and locality of the tokenizer |
| C91 | `bytes_to_string_contents` and `str.replace` (`Embed.lean`) with the tokenizer of C30 | what strings denote is `Spec/StrLit.lean` (C17); what is skipped and the tokens before do not depend on what comes behind, by induction over the tokenizer |
| C92 | `split_hint_args`, `map_aliases`, `add_custom_alias`, the `def-alias` comment (`Aliases.lean`); the loop has fuel, theorems are for all large enough fuel, or for all fuel if it never ends | `Spec/Aliases.lean`: what a hint says, what a name stands for (an inductive relation), sequences of definitions; that a definition keeps everything standing for something by induction over the relation |
| C93 | `_adjacent`, `_find_token`, `find_or_create_token`, `collect_comments`, `add_comments`, `remove_child`, `replace_with`, `erase` and their use in `minify_change_block_shorthand` (`TreeEdit.lean`), with a zipper for a node and its parents and numbers for the identity of tokens and comments | the tokens before and after a place as sequences (`Spec/TreeEdit.lean`); the loop by a measure that is the number of tokens and nodes on its side; adding comments is a change of one element of the sequence |
| C94 | `CompressionTracer`, `bit_position` of writer and reader, its calls when compressing (`Trace.lean`), with the compressor of C01 | a CSV reader (`Spec/Csv.lean`) and what items describe (`Spec/Cover.lean`); induction over the items; the sum of the sizes telescopes |
| C95 | `print_size` and its calls for tokens, characters, compressed sizes and URLs (`Sizes.lean`); exact quotients instead of doubles | a reader of report lines (`Spec/Percent.lean`); rounding is off by at most half a unit; a line is read in one way only |
| C96 | `get_bbs_cart_url` with Python's `urlencode` (`Bbs.lean`) | a reader of queries (`Spec/Query.lean`) and UTF-8 (`Spec/Utf8.lean`); each byte is read back, separators are never written for a byte |
| C97 | `Error.__lt__`, `Error.format`, and the loop that prints errors (`Errors.lean`) | lines and columns as in C44; sorting is a stable permutation; places grow with positions |
| C98 | `sort_root` with `find_includes` (`IncludeOrder.lean`), on top of the sorting of C46; the calls of `include` of a file are a list | what files include as a relation; its transitive closure covers dependencies in the graph of C46 |

## Findings: where the code does not do what one would expect

Proved about the model, with a concrete witness (theorem names):

* `C02_block_counterexample`, `C56_size_counterexample`: the default compressor's block planner can emit an empty block, after which
  compression fails.  `C06_fast_crash_counterexample`: legacy fast mode fails on a match below the minimum count.
* `C09_legacy_full_area_counterexample`, `C11_legacy_counterexample`: legacy-compressed code without spare bytes cannot be read.
* `C07_*`, `C36_counterexample`: the raw program `:c:` followed by NUL padding is mistaken for compressed code.
* `C14_*_counterexample`: `.p8` text: code lines that look like section headers, CR at line ends, empty metadata sections.
* `C19_decimal_counterexample`: decimal text of integers below -10^18 is wrong.
* `C22_string_counterexample`: comparison of strings with escaped raw bytes is folded wrongly.
* `C23_counterexample`: folding a shift by the most negative count recurses for ever.
* `C24_count_counterexample`, `C24_label_counterexample`, `C25_expose_counterexample`: number of values changed by folding; a label lost;
  a call exposed as last source by erasing constants.
* `C28_member_counterexample`: a global preserved because of a member-keys hint captures.
* `C30_comment_counterexample`: a kept comment glued after `-`.
* `C32_*_counterexample`: merging `local a = ...` with a declaration without sources; order of table-member targets.
* `C34_nul_path_counterexample`, `C42_*_counterexample`: file paths/contents that Picotron forms do not restore.
* `C35_pico_label_counterexample`, `C38_counterexample`, `C49_payload_counterexample`, `C49_cache_counterexample`.
* `C39_palette_counterexample` (index overwritten by the loop over colours), `C39_tail_counterexample`, `C39_name_counterexample`,
  `C39_empty_name_counterexample`, `C40_name_counterexample`.
* `C43_level_counterexample`: an include line within a string `[=[ ]=]` is expanded (within `[[ ]]` it is not).
* `C43_hang_counterexample`, `C44_marker_counterexample`, `C45_empty_counterexample`, `C45_map_counterexample`, `C48_meta_counterexample`.
* `C54_*_counterexample`: a bracketed literal of a string ending with `]` is not one token.
* `C17_z_counterexample`: `\z` with only white space behind it is valid Lua, but the parser fails.
* `C17_x_counterexample`: `\x` with a single digit at the end of a literal is not valid Lua, but the parser accepts it.
* `C59_true_key_counterexample`, `C59_false_key_counterexample`: in pods, keys `true`/`1` and `false`/`0` are mixed up;
  `C59_big_int_counterexample`.
* `C61_return_counterexample`: a program ending with a bare `return` is rejected; `C61_target_counterexample`: `1 = 2` is accepted.
* `C67_digits_counterexample`: userdata written with upper-case digits (or with data that does not match the size, C38) is not the same after it was stored: `write_pxu` takes it nevertheless.
* `C68_negative_counterexample`: unminifying `a=- -b` writes `a = --b`, a comment.
* `C68_bracket_counterexample`: unminifying `a[ [[x]] ]` writes `a[[[x]]]`, which is no program.
* `C68_semicolon_counterexample`: unminifying `a=b;(f or g)()` drops the `;`, so that `b` is called.
* `C68_else_counterexample`: unminifying `if (x) a() else b();` fails with an error (there is no `cond` in an `else`).
* `C71_large_counterexample`: a decimal integer of 310 digits raises an uncaught `OverflowError` in `parse_luanum`, though with a point it is
  infinite; a binary numeral with 1024 digits after the point is read as infinity although it is small.
* `C71_zero`: with base 16 the number `0.` would be written as the integer `0x0`; nothing asks for that base.
* `C74_expose_counterexample`: `local a,b,c=g(),1` with `b` constant and `c` reassigned becomes `local a,c=g()`: the second result of `g` now goes to `c` (the program prints something else; the same fault as in C25, seen in a running program).
* `C74_prefix_counterexample`: a constant local used before `.`, `[`, `:` or `(` is replaced without parentheses: `local --[[const]] s="abc" print(s:sub(1))` becomes `print("abc":sub(1))`, and `local cfg=false ... cfg.x=1` becomes `false.x=1`, neither of which is a program.
* Not modelled: `local _ENV=nil` would be removed as a constant although every global uses it.
* `C75_bare_counterexample`: `local x=g() local y print(x,y)` becomes `local x,y=g() print(x,y)`: `y` is the second result of `g` instead of nil (the fault of C32, seen in a running program). No other program is changed by merging local declarations.
* `C77_unlisted_counterexample`: a file whose directory is not itself listed in the cart is silently left out when the cart is written to a directory.
* `C77_filter_counterexample`: for that reason `--filter "*.lua"` (which also drops the entries of directories) together with writing to a directory loses all files in subdirectories.
* `C78_clash_counterexample`: merging does not notice that a file of one cart is a directory of the other; the result cannot be written to a directory.
* `C79_number_counterexample`: metadata with an entry without a name (`--[[pod,5]]`) stops `--delete-meta` (and so minifying) with an exception, as a number cannot be matched against the patterns of keys.
* `C79_raw_counterexample`: a pod whose metadata has `pod_format="raw"` in another place than the first becomes a raw file when its metadata is rewritten.
* `C79_payload_counterexample`: a raw file whose contents begin with `--[[pod` loses that part when its metadata is removed.
* `C79_version_counterexample`: after metadata was removed, a cart without a version reports 2^63-1 where -1 (no version) is printed otherwise.
* `C80_call_counterexample`: `local x=g local y` before a line that begins with `(`, as in `(f)()`, is merged to `local x,y=g`, and the text that is written, `local x,y=g(f)()`, calls `g`.
* `C80_group_counterexample`: parentheses are removed before declarations are merged, so `local x=(f()) local y` becomes `local x,y=f()`, where `y` takes the second result.
* `C80_close_counterexample`: for Picotron, `local a<close> =f() local b<close> =g()` is merged to one declaration with two variables to be closed, which Lua 5.4 refuses to compile.
* `C81_cr_counterexample`: a title with carriage returns (of code with CRLF line ends that was not read from text) changes when the code is replaced.
* `C81_header_counterexample`: a title that looks like a section header (code beginning with `--__g__`) is lost when the minified cart is saved as .p8.
* `C81_empty_counterexample`: an empty title is kept as metadata without lines, which .p8 files cannot hold; if the new code begins with a comment, this is the title after loading.
* `C82_lua_counterexample`: a code file that begins with `__lua__=1` is taken for a cart when the format is not named, and its code is lost.
* `C82_cr_counterexample`: a carriage return alone is a line end if the format is named, but not if it is recognised.
* `C82_final_newline_counterexample`: code saved as code loses a line end at its end.
* `C82_not_utf8_counterexample`: a cart with metadata that is not UTF-8 can be loaded, but not saved as .p8 again (files are decoded with `surrogateescape`, but encoded without).
* `C83_tiny_counterexample`: a tiny ROM with PICO-8 compression is taken for code when its format is not named.
* `C83_rom_form`: a ROM whose version and size have no zero byte (so of at least 16 MB) is taken for code.
* `C83_pod_counterexample`: a pod with the metadata `--[[pod]]` loses it when it is saved (it is read as the same pod).
* `C83_pod_open_counterexample`: a pod that begins with `--[[pod` without the end of the metadata is lost: the file saved is empty.
* `C84_header_counterexample`: the code ` __a=__b__` is saved and loaded as it is, but minified it begins with `__` and ends with `__`, which is taken for the header of a section: all code is lost.
* `C85_exe_found` needs that the whole table of sections is in the file and that no number occurs twice in a directory; otherwise the search ends with an exception, or takes the first entry.
* `C86_title_counterexample`: an export name that is not shorter than the picture of the title makes creating the export fail; characters above 255 are stored as 255.
* `C87_meta_counterexample`: code that begins with `--[[pod` (a comment) becomes metadata of a file that had none, and the file is no source any more.
* `C88_script_counterexample`: if a script complains about a cart and `--lint` is not given, the cart is written without being minified, and success is reported.
* `C88_late_counterexample`: an export that cannot be created (no `--pico8-dat`) is noticed only after other outputs were written.
* `C88_in_place_counterexample`: with `--in-place`, a file whose name does not tell its format is overwritten as source, although its format was recognised by content when it was read.
* `C88_keep_counterexample`: `--minify --keep-compression` is rejected, `--minify-safe-only --keep-compression` is accepted (and the old compressed code is then written, so the change is lost).
* `C89_unread_counterexample`: one pod that the reader does not understand makes processing of a whole Picotron cart fail, even if its pods need not be changed (unless `--keep-pod-compression` is given).
* `C89_open_counterexample`: metadata that is not ended, with a `]` at the end, changes when the file is stored anew.
* `C90_bnot_counterexample`: with Picotron, `--const NAME ~5` is refused (`parse_luanum` knows no `~`), with PICO-8 it is accepted.
* `C91_quote_counterexample`, `C91_digit_counterexample`: the text of `bytes_to_string_contents` is only right as the whole of a string in double quotes: in single quotes an apostrophe in the data ends the string, and a zero byte at the end with a digit behind it is read as another byte.
* `C92_cycle_counterexample`: aliases defined by each other (`--$def-alias: a = b`, `--$def-alias: b = a`), or one defined by itself, make the tool hang at the next hint that uses them (pico_process.py 237); there is no message.
* `C92_newline_counterexample`: in a hint over several lines, only a space ends the name (`split(" ", 1)`, pico_tokenize.py 13): with a line feed or tab after the name, the first word of the arguments becomes a part of it.
* `C93_last_counterexample`: `remove_token(-1)` (used for `end` when a block is made short, pico_minify.py 163-165) passes the index -1 on to `find_or_create_token`, so that comments before `end` go before the first statement of the block.
* `C93_move_counterexample`: `move` (used to wrap the condition of a short `if`, pico_minify.py 169) erases the node with its comments kept, although the moved node has them too: a comment in the condition is then held by two tokens.
* `C93_copy_counterexample`: `replace_with` allows a copy of the node in the target, but copied comments are other objects, so that they are there twice.
* `C94_size_counterexample`: the sizes in the file of `--trace-compression` are wrong, and can be negative: `BinaryBitWriter.bit_position` (utils.py 1292-1294) subtracts the bits not yet written to the file, where it should add them. (With `--trace-input-compression` they are right: `C94_read`.)
* `C95_chars_counterexample`: 65536 characters, one more than allowed, are reported as `chars: 65536 100.00%`, like 65535: two decimals are too few for this limit (pico_compress.py 9).
* `C97_files_counterexample`: errors are sorted by their position only (pico_process.py 278-279), so for a Picotron cart with several files the errors of the files are printed mixed up.
* `C98_crash_counterexample`: a call `include()` without an argument in a Picotron cart crashes the tool (`arg` is `None`, picotron_defs.py 258-259).
* `C66_do_counterexample`: `if a then ;do x=1 end y=2 end` becomes `if(a)do x=1end y=2`: the check for a leading `do` looks at the first token, which is the `;` that is dropped later.
* `C66_call_counterexample`, `C66_next_counterexample`: `if a then (f or g)() end` becomes `if(a)(f or g)()`, and `if a then f=g end (h or i)()` becomes `if(a)f=g⏎(h or i)()`: a parenthesis after the condition, or on the line after the shorthand, makes a call of what is before it.
* `C66_break_counterexample`, `C66_else_counterexample`: `if x then if (a) if b then c() else d() end else z() end` and `if (a) if b then c() else if (q) d() end else e()`: a shorthand made inside of a shorthand that is followed by more on its line, or in front of an `else`, takes or loses that `else`.
* `C66_print_counterexample`: `print()` becomes `?`, which the parser rejects.
* `C65_string_counterexample`: `a=[=[x]]=]b=1` is written as `a= [[x]]] b=1`, which is no program (the cause is that of `C54`, seen end to end).
* `C64_do_counterexample`: `if (a);do x=1 end y=2` has its `;` erased, which makes it a long `if`.
* `C64_condition_counterexample`: a shorthand whose condition only starts and ends with parentheses, `if (a)+(b) c=1`, becomes `if (a)+b c=1`,
  which is no program.
* `C64_line_counterexample`, `C64_else_counterexample`: a shorthand in a function or block over several lines inside of another shorthand is
  printed on the same line as what follows it.
* `C64_print_counterexample`: `?` is always followed by a line break, also inside of a shorthand, whose `else` then goes elsewhere.
* `C64_return_counterexample`: `return;` at the end of a program becomes `return`, which the parser rejects.
* `C64_forin_counterexample`: in Picotron, `for x in f,s,(g()) do` loses its parentheses, although Lua 5.4 takes a fourth (closing) value.
* `C63_env_key_counterexample`: a key of `_ENV` preserved as a member only (`*.a`) is not seen to be a global, so another global can get its
  name: `_ENV.a=1 foo=2` becomes `_ENV.a=1 a=2`.
* `C56_counterexample`: tiny ROM of a program starting with `p64` or with a NUL.

Seen while reading, outside the model (not proved):

* `--keep:[[ x` becomes a long comment when kept; the tokenizer does not end on `"\z` at the end of input; `"…\z"` at the end raises
  `TypeError`.
* `parse_luanum("-0x8000000000000000")` gives 2^63 unwrapped.
* Picotron `include()` without arguments crashes sorting of roots.
* The regular expression for versions has unescaped dots.
* `get_orig_wspace` uses Python's `isspace`, which accepts 0x85 and 0xa0.
* The LZ4 reader accepts offset 0 and streams that end after a copy.
* `parse_pod` calls `add_error` without its node argument.
* `JsExport` renaming without a target name writes `None`.
* `PodFile.find_prefix` crashes on unnamed entries; `insert_content` with an invalid surface format raises `UnboundLocalError`;
  `replace_content` on an unnamed entry raises after the entry was deleted; header junk is skipped without checking for the end.
* The parser takes `?` in the middle of expressions; `elseif (c) statement` on one line ends the `if` without `end`.
* `LabelScope.find` drops `crossfunc`; `P8sciiMeasurer` miscounts some control codes.

Disagreement between a first reading and the code is kept in the notes of `MANIFEST.json`; a property with status `partial` has
theorems for the part that holds and counterexamples for the excluded part where the code is wrong.

## Axioms

`#print axioms` for all theorems of the manifest: see `AXIOMS.md` (generated).
