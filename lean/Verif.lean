import Verif.Lemmas.Annot
import Verif.Lemmas.Basic
import Verif.Lemmas.Browse
import Verif.Lemmas.CMap
import Verif.Lemmas.Commit
import Verif.Lemmas.Concat
import Verif.Lemmas.Dec
import Verif.Lemmas.Deps
import Verif.Lemmas.Detach
import Verif.Lemmas.Disasm
import Verif.Lemmas.Doc
import Verif.Lemmas.Edits
import Verif.Lemmas.Emits
import Verif.Lemmas.Falsy
import Verif.Lemmas.FileMap
import Verif.Lemmas.FileStream
import Verif.Lemmas.FileText
import Verif.Lemmas.Filed
import Verif.Lemmas.Filters
import Verif.Lemmas.FollowMarkup
import Verif.Lemmas.Heap
import Verif.Lemmas.Indirect
import Verif.Lemmas.KernelRfl
import Verif.Lemmas.Layout
import Verif.Lemmas.Leak
import Verif.Lemmas.LinEdit
import Verif.Lemmas.LinLoad
import Verif.Lemmas.Markdown
import Verif.Lemmas.MarkdownBlocks
import Verif.Lemmas.Markup
import Verif.Lemmas.MemDoc
import Verif.Lemmas.MixFiled
import Verif.Lemmas.MixLoad
import Verif.Lemmas.MixWrite
import Verif.Lemmas.Names
import Verif.Lemmas.ObjStm
import Verif.Lemmas.ObjStmText
import Verif.Lemmas.Overview
import Verif.Lemmas.PageMap
import Verif.Lemmas.PageMarkup
import Verif.Lemmas.Pages
import Verif.Lemmas.Parse
import Verif.Lemmas.Prog
import Verif.Lemmas.Prune
import Verif.Lemmas.PyEq
import Verif.Lemmas.Refs
import Verif.Lemmas.Reload
import Verif.Lemmas.Reload2
import Verif.Lemmas.Removal
import Verif.Lemmas.RemovalEval
import Verif.Lemmas.Renumber
import Verif.Lemmas.Revision
import Verif.Lemmas.Revision2
import Verif.Lemmas.Rewind
import Verif.Lemmas.RoundTrip
import Verif.Lemmas.RoundTrip2
import Verif.Lemmas.Scan
import Verif.Lemmas.ScanAll
import Verif.Lemmas.ScanFile
import Verif.Lemmas.Shift
import Verif.Lemmas.SimEdit
import Verif.Lemmas.SimRead
import Verif.Lemmas.SimText
import Verif.Lemmas.SpellStream
import Verif.Lemmas.Spelling
import Verif.Lemmas.Spelling2
import Verif.Lemmas.Squash
import Verif.Lemmas.StreamLoad
import Verif.Lemmas.StreamRT
import Verif.Lemmas.StreamWrite
import Verif.Lemmas.Stuck
import Verif.Lemmas.StuckText
import Verif.Lemmas.Terminates
import Verif.Lemmas.Text
import Verif.Lemmas.Tok
import Verif.Lemmas.Trans
import Verif.Lemmas.Twin
import Verif.Lemmas.Visible
import Verif.Lemmas.Xref
import Verif.Model.Basic
import Verif.Model.Browse
import Verif.Model.CMap
import Verif.Model.Cli
import Verif.Model.Concat
import Verif.Model.Details
import Verif.Model.Disasm
import Verif.Model.Display
import Verif.Model.Doc
import Verif.Model.FileMap
import Verif.Model.Filters
import Verif.Model.Fonts
import Verif.Model.Graphics
import Verif.Model.Heap
import Verif.Model.Index
import Verif.Model.IndexTable
import Verif.Model.Iterate
import Verif.Model.Layout
import Verif.Model.Load
import Verif.Model.Markdown
import Verif.Model.Objects
import Verif.Model.Overview
import Verif.Model.Page
import Verif.Model.Pages
import Verif.Model.Pprint
import Verif.Model.Prog
import Verif.Model.Provider
import Verif.Model.Revision
import Verif.Model.Shown
import Verif.Model.Streams
import Verif.Model.Text
import Verif.Model.Value
import Verif.Model.Xref
import Verif.Props.C01_RoundTrip
import Verif.Props.C02_Streams
import Verif.Props.C03_Tokens
import Verif.Props.C06_Termination
import Verif.Props.C07_Refs
import Verif.Props.C09_Filters
import Verif.Props.C100_Ascii
import Verif.Props.C101_Visible
import Verif.Props.C102_Squashed
import Verif.Props.C103_PagesFile
import Verif.Props.C104_JoinedFile
import Verif.Props.C105_FilterFile
import Verif.Props.C106_Linearized
import Verif.Props.C107_IndexTable
import Verif.Props.C108_AnnotFile
import Verif.Props.C109_Detail
import Verif.Props.C110_Shown
import Verif.Props.C111_Commands
import Verif.Props.C112_TextFile
import Verif.Props.C113_TextPages
import Verif.Props.C114_TextAfter
import Verif.Props.C115_TextAnnot
import Verif.Props.C13_Xref
import Verif.Props.C18_Revision
import Verif.Props.C20_Prefix
import Verif.Props.C21_Commit
import Verif.Props.C23_Map
import Verif.Props.C24_Alias
import Verif.Props.C25_Memo
import Verif.Props.C26_Rewind
import Verif.Props.C27_Delete
import Verif.Props.C28_Reload
import Verif.Props.C29_Pages
import Verif.Props.C31_MaxNb
import Verif.Props.C32_Rotate
import Verif.Props.C33_Remove
import Verif.Props.C35_Slice
import Verif.Props.C36_Concat
import Verif.Props.C37_Squash
import Verif.Props.C38_Text
import Verif.Props.C42_Graphics
import Verif.Props.C46_FileMap
import Verif.Props.C48_Checks
import Verif.Props.C49_Provider
import Verif.Props.C53_Version
import Verif.Props.C54_Layout
import Verif.Props.C55_Html
import Verif.Props.C56_ObjStm
import Verif.Props.C57_Annot
import Verif.Props.C59_Files
import Verif.Props.C59_Load
import Verif.Props.C60_Exact
import Verif.Props.C62_Pending
import Verif.Props.C69_Filter
import Verif.Props.C70_OwnFiles
import Verif.Props.C71_Index
import Verif.Props.C72_ToUnicode
import Verif.Props.C73_Shown
import Verif.Props.C75_Fragments
import Verif.Props.C76_Layout
import Verif.Props.C77_PageText
import Verif.Props.C78_Fonts
import Verif.Props.C79_Packed
import Verif.Props.C80_Compress
import Verif.Props.C81_Disasm
import Verif.Props.C82_Browse
import Verif.Props.C84_Overview
import Verif.Props.C84_Shown
import Verif.Props.C85_Metadata
import Verif.Props.C86_Streams
import Verif.Props.C87_Links
import Verif.Props.C88_Emphasis
import Verif.Props.C89_Documents
import Verif.Props.C90_Balanced
import Verif.Props.C91_Page
import Verif.Props.C93_Iterate
import Verif.Props.C94_Pprint
import Verif.Props.C95_History
import Verif.Props.C97_Hierarchy
import Verif.Props.C98_Spelling
import Verif.Props.C99_Foreign
import Verif.Props.C99_Limits
import Verif.Props.C99_Sample
import Verif.Spec.AsciiText
import Verif.Spec.CMap
import Verif.Spec.Concat
import Verif.Spec.Doc
import Verif.Spec.Falsy
import Verif.Spec.FileText
import Verif.Spec.Fonts
import Verif.Spec.History
import Verif.Spec.Markup
import Verif.Spec.ObjStm
import Verif.Spec.Objects
import Verif.Spec.PageTree
import Verif.Spec.Provider
import Verif.Spec.Reads
import Verif.Spec.Refs
import Verif.Spec.Removal
import Verif.Spec.Renumber
import Verif.Spec.Revision
import Verif.Spec.Spelling
import Verif.Spec.Storable
import Verif.Spec.Store
import Verif.Spec.Text
import Verif.Spec.Token
import Verif.Spec.Visible
import Verif.Spec.Xref
