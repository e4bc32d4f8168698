import Verif.Ctype.Model
import Verif.Ctype.Spec
import Verif.Ctype.Props
import Verif.Strtol.Model
import Verif.Strtol.Spec
import Verif.Strtol.Lemmas
import Verif.Strtol.Props
import Verif.Mem.Model
import Verif.Mem.Spec
import Verif.Mem.Lemmas
import Verif.Mem.Props
import Verif.Mem.PropsSearch
import Verif.Mem.PropsTok
import Verif.Lng.Model
import Verif.Lng.Props
import Verif.Sort.Model
import Verif.Sort.Lemmas
import Verif.Sort.Props
import Verif.Heap.Model
import Verif.Heap.Spec
import Verif.Heap.Lemmas
import Verif.Heap.Ops
import Verif.Heap.Realloc
import Verif.Heap.History
import Verif.Heap.Props
import Verif.Printf.Model
import Verif.Printf.Spec
import Verif.Printf.Lemmas
import Verif.Printf.Conv
import Verif.Printf.Parse
import Verif.Printf.Props
import Verif.Time.Model
import Verif.Time.Spec
import Verif.Time.Lemmas
import Verif.Time.Props
import Verif.Stdio.Model
import Verif.Stdio.Spec
import Verif.Stdio.Read
import Verif.Stdio.Write
import Verif.Stdio.Seek
import Verif.Stdio.Lemmas
import Verif.Stdio.Props
import Verif.Stdio.More
import Verif.Number.Model
import Verif.Number.Spec
import Verif.Number.Chain
import Verif.Number.Round
import Verif.Number.D2f
import Verif.Number.D2fOk
import Verif.Number.Scan
import Verif.Number.Lit
import Verif.Number.Flt
import Verif.Number.Props
import Verif.Macro.Model
import Verif.Macro.Spec
import Verif.Macro.Lemmas
import Verif.Macro.Props
import Verif.Prep.Model
import Verif.Prep.Spec
import Verif.Prep.Lemmas
import Verif.Prep.Props
import Verif.Ident.Model
import Verif.Ident.Spec
import Verif.Ident.Lemmas
import Verif.Ident.Run
import Verif.Ident.Props
import Verif.Layout.Model
import Verif.Layout.Spec
import Verif.Layout.Lemmas
import Verif.Layout.Props
import Verif.Specif.Model
import Verif.Specif.Spec
import Verif.Specif.Lemmas
import Verif.Specif.Props
import Verif.Lit.Model
import Verif.Lit.Spec
import Verif.Lit.Lemmas
import Verif.Lit.Props
import Verif.Reloc.Model
import Verif.Reloc.Spec
import Verif.Reloc.Lemmas
import Verif.Reloc.Props
import Verif.Link.Model
import Verif.Link.Spec
import Verif.Link.Lemmas
import Verif.Link.Props
import Verif.Sect.Model
import Verif.Sect.Spec
import Verif.Sect.Order
import Verif.Sect.Lemmas
import Verif.Sect.Inv
import Verif.Sect.Loop
import Verif.Sect.Find
import Verif.Sect.Props
import Verif.Expr.Props
import Verif.Parse.Props
import Verif.Stmt.Props
import Verif.Nhash.Props
import Verif.Eval.Props
import Verif.Scope.Props
import Verif.Init.Props
import Verif.Cg.Props
import Verif.Scan.Props
import Verif.Fprint.Props
import Verif.Declr.Props
import Verif.Trans.Props
import Verif.Fn.Props
import Verif.Frame.Props
import Verif.Lex.Props
import Verif.Mips.Props
import Verif.Ftime.Props
import Verif.Exe.Props
import Verif.Whole.Props
import Verif.Objf.Props
import Verif.Mfn.Props
import Verif.Mframe.Props
import Verif.Text.Props
import Verif.Ulex.Props
import Verif.Redecl.Props
import Verif.Mach.Props
import Verif.Fixup.Props
import Verif.Pe.Props
import Verif.Pe.Cases
import Verif.Imports.Props
import Verif.Strtof.Props
import Verif.Fscan.Props
import Verif.Getenv.Props
import Verif.Rand.Props
import Verif.Exit.Props
import Verif.Args.Props
import Verif.Tmpnam.Props
