/-
Edit histories of any kind (C20).
-/
import Verif.Model.Load

namespace Pdf.Spec
variable [Zlib]

/-- The documents derived from `d0` by commits and by edits of any kind: whatever changes objects, index
and cache, but neither the number of revisions nor the data records (`doc.data`), which only `commit`
touches. -/
inductive History (d0 : Doc) : Doc → Prop
  | start : History d0 d0
  | edit {d d' : Doc} : History d0 d → d'.past.length = d.past.length → d'.data = d.data →
      History d0 d'
  | commit {d d' : Doc} : History d0 d → Pdf.commit d = .ok d' → History d0 d'

end Pdf.Spec
