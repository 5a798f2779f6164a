import Verif.Bits
import Verif.BitsLemmas
import Verif.Pxa
import Verif.PxaLemmas
import Verif.PxaLocal
import Verif.Compress
import Verif.CompressLemmas
import Verif.Lz77
import Verif.Lz77Lemmas
import Verif.Lz77Inv
import Verif.Lz77Old
import Verif.Mem
import Verif.Rom
import Verif.Charset
import Verif.Text
import Verif.TextLemmas
import Verif.P8Source
import Verif.P8RowLemmas
import Verif.P8SourceLemmas
import Verif.StrLit
import Verif.StrLitLemmas
import Verif.Num
import Verif.NumLemmas
import Verif.Spec.Cover
import Verif.Props.Compress
import Verif.Props.Lz77
import Verif.Props.Lz77Counter
import Verif.Props.Mem
import Verif.Props.Rom
import Verif.Spec.P8scii
import Verif.Props.Charset
import Verif.Props.P8Source
import Verif.Spec.P8Format
import Verif.Props.P8Layout
import Verif.Spec.LuaWords
import Verif.Spec.NumLit
import Verif.Props.NumDen
import Verif.Props.StrLit
import Verif.Spec.StrLit
import Verif.Props.StrDen
import Verif.Props.Num
import Verif.ConstFold
import Verif.ConstFoldLemmas
import Verif.ConstFoldOps
import Verif.Spec.Runtime
import Verif.Props.ConstFold
import Verif.Spec.LuaSem
import Verif.FoldTree
import Verif.FoldTreeLemmas
import Verif.Props.FoldTree
import Verif.FoldAssign
import Verif.Props.FoldAssign
import Verif.Ident
import Verif.IdentLemmas
import Verif.Props.Ident
import Verif.Rename
import Verif.RenameLemmas
import Verif.RenameScope
import Verif.Props.Rename
import Verif.Preserve
import Verif.Props.Preserve
import Verif.Find
import Verif.SourceMap
import Verif.Props.SourceMap
import Verif.Preprocess
import Verif.Props.Preprocess
import Verif.Topo
import Verif.Props.Topo
import Verif.Url
import Verif.Props.Url
import Verif.Merge
import Verif.Props.Merge
import Verif.Binary
import Verif.Props.Binary
import Verif.Version
import Verif.Props.Version
import Verif.Lex
import Verif.LexLemmas
import Verif.Props.Lex
import Verif.Paren
import Verif.Spec.Paren
import Verif.ParenLemmas
import Verif.ParenMinLemmas
import Verif.Props.Paren
import Verif.MergeAsg
import Verif.Spec.MergeAsg
import Verif.MergeAsgLemmas
import Verif.Props.MergeAsg
import Verif.Spec.CodeFormat
import Verif.CodeFormatLemmas
import Verif.Props.CodeFormat
import Verif.Lz4
import Verif.Spec.Lz4
import Verif.Lz4Lemmas
import Verif.Props.Lz4
import Verif.Ptron
import Verif.Spec.Ptron
import Verif.PtronLemmas
import Verif.Props.Ptron
import Verif.Stego
import Verif.Spec.Stego
import Verif.StegoLemmas
import Verif.Props.Stego
import Verif.Pxu
import Verif.PxuLemmas
import Verif.Props.Pxu
import Verif.PtFile
import Verif.PtFileLemmas
import Verif.Props.PtFile
import Verif.SysRom
import Verif.Props.SysRom
import Verif.P64
import Verif.P64Lemmas
import Verif.Props.P64
import Verif.Spec.ExportSpec
import Verif.CartExport
import Verif.JsExport
import Verif.JsExportLemmas
import Verif.Props.JsExport
import Verif.Spec.PodFormat
import Verif.PodFile
import Verif.PodFileLemmas
import Verif.Props.PodFile
import Verif.Props.PodExport
import Verif.PodText
import Verif.Spec.PodText
import Verif.PodTextLemmas
import Verif.PodTextParse
import Verif.Spec.PodGrammar
import Verif.Props.PodText
import Verif.LuaStr
import Verif.Spec.Utf8
import Verif.Props.LuaStr
import Verif.Ast
import Verif.Syntax
import Verif.Spec.LuaGrammar
import Verif.SyntaxLemmas
import Verif.SyntaxSound
import Verif.SyntaxComplete
import Verif.Props.Syntax
import Verif.Resolve
import Verif.Spec.LuaScope
import Verif.Spec.LuaLabels
import Verif.ResolveLemmas
import Verif.ResolveLabels
import Verif.ResolveInv
import Verif.Props.Resolve
import Verif.ResolveNodes
import Verif.RenameTree
import Verif.RenameTreeSub
import Verif.RenameTreeRun
import Verif.ScopeEnv
import Verif.RenameTreeOk
import Verif.RenameTreeGood
import Verif.RenameTreeText
import Verif.Props.RenameTree
import Verif.Spec.LuaOps
import Verif.Props.Symbols
import Verif.Output
import Verif.Spec.LuaNorm
import Verif.Spec.Tidy
import Verif.Minify
import Verif.Fine
import Verif.FineParse
import Verif.FineReparse
import Verif.FineOf
import Verif.MinifyLemmas
import Verif.Reflag
import Verif.MinifyNorm
import Verif.MinifyText
import Verif.Props.Minify
import Verif.Source
import Verif.SourceLemmas
import Verif.MinifyTokens
import Verif.MinifySource
import Verif.Props.MinifySource
import Verif.Short
import Verif.ShortTree
import Verif.ShortLemmas
import Verif.Spec.LuaPrint
import Verif.ShortNorm
import Verif.Spec.Plain
import Verif.ShortApt
import Verif.Props.Short
import Verif.StoredPod
import Verif.Spec.StoredPod
import Verif.StoredLemmas
import Verif.StoredSplice
import Verif.StoredMeta
import Verif.Props.StoredPod
import Verif.Spec.Long
import Verif.Reline
import Verif.Unminify
import Verif.UnminifyTree
import Verif.UnminifyLex
import Verif.UnminifyJoin
import Verif.UnminifyChain
import Verif.UnminifyKinds
import Verif.Props.Unminify
import Verif.Props.Spelling
import Verif.RenameTokens
import Verif.RenameTidy
import Verif.Props.Pipeline
import Verif.Spec.LuaUses
import Verif.Spec.LuaLint
import Verif.Lint
import Verif.LintLemmas
import Verif.LintOk
import Verif.LintMore
import Verif.LintDup
import Verif.Props.Lint
import Verif.MinifyTron
import Verif.Float
import Verif.FloatLemmas
import Verif.FloatDec
import Verif.FloatText
import Verif.FloatOut
import Verif.Spec.Double
import Verif.Props.Float
import Verif.Props.MinifyTron
import Verif.Props.PipelineTron
import Verif.Spec.LuaCore
import Verif.Spec.LuaStatic
import Verif.FoldProg
import Verif.FoldProgLemmas
import Verif.FoldProgLocal
import Verif.FoldProgSim
import Verif.FoldProgFine
import Verif.FoldProgScope
import Verif.Props.FoldProg
import Verif.Spec.LuaNames
import Verif.MergeProg
import Verif.MergeProgRel
import Verif.MergeProgSim
import Verif.MergeProgRun
import Verif.MergeProgNames
import Verif.MergeProgChain
import Verif.Props.MergeProg
import Verif.Spec.LuaElab
import Verif.CoreSame
import Verif.ElabNorm
import Verif.ElabPrint
import Verif.ElabScoped
import Verif.ElabLit
import Verif.ElabRename
import Verif.Props.Elab
import Verif.CartDir
import Verif.Spec.CartDir
import Verif.CartDirLemmas
import Verif.CartDirRead
import Verif.CartDirWrite
import Verif.Props.CartDir
import Verif.CartMerge
import Verif.Spec.CartMerge
import Verif.CartMergeLemmas
import Verif.Props.CartMerge
import Verif.CartMeta
import Verif.Spec.CartMeta
import Verif.CartMetaLemmas
import Verif.Props.CartMeta
import Verif.CoreAlpha
import Verif.MergeTree
import Verif.MergeTreePairs
import Verif.MergeTreeLemmas
import Verif.MergeTreeMain
import Verif.MergeTreePerm
import Verif.Spec.MergeQuiet
import Verif.MergeTreeFine
import Verif.MergeTreeTokens
import Verif.Props.MergeTree
import Verif.CartTitle
import Verif.Spec.CartTitle
import Verif.CartTitleLemmas
import Verif.Props.CartTitle
import Verif.AutoDetect
import Verif.AutoDetectLemmas
import Verif.Props.AutoDetect
import Verif.AutoTron
import Verif.Props.AutoTron
import Verif.Spec.Top
import Verif.Props.PreprocessTop
import Verif.EndToEnd
import Verif.Props.EndToEnd
import Verif.Icons
import Verif.Spec.Icons
import Verif.IconsLemmas
import Verif.ZstrLemmas
import Verif.Props.Icons
import Verif.NewExport
import Verif.Spec.NewExport
import Verif.NewExportLemmas
import Verif.Props.P8Text
import Verif.Props.NewExport
import Verif.SrcFiles
import Verif.Spec.SrcFiles
import Verif.Props.SrcFiles
import Verif.MainFlow
import Verif.Spec.MainFlow
import Verif.Props.MainFlow
import Verif.Repack
import Verif.Spec.Repack
import Verif.Props.Repack
import Verif.GivenConst
import Verif.Spec.GivenConst
import Verif.Props.GivenConst
import Verif.Embed
import Verif.Props.Embed
import Verif.Aliases
import Verif.Spec.Aliases
import Verif.AliasesLemmas
import Verif.Props.Aliases
import Verif.TreeEdit
import Verif.TreeEditLemmas
import Verif.Spec.TreeEdit
import Verif.Props.TreeEdit
import Verif.Trace
import Verif.Spec.Csv
import Verif.Props.Trace
import Verif.Sizes
import Verif.Spec.Percent
import Verif.Props.Sizes
import Verif.Bbs
import Verif.Spec.Query
import Verif.Props.Bbs
import Verif.Errors
import Verif.Props.Errors
import Verif.IncludeOrder
import Verif.Props.IncludeOrder
