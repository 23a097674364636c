/-
Example files used against the loader.
-/
import Verif.Props.C23_Map
import Verif.Model.Load

namespace Pdf

/-- A file whose section names itself as the previous one. -/
def cycleFile : Bytes :=
  b!"%PDF-1.4\n1 0 obj\n<< /Type /Catalog >>\nendobj\n" ++
  b!"xref\n0 2\n0000000000 65535 f\n0000000009 00000 n\n" ++
  b!"trailer\n<< /Root 1 0 R /Size 2 /Prev 45 >>\nstartxref\n45\n%%EOF\n"

/-- A hybrid file: object 2 is listed by the table, object 1 by the stream named by `/XRefStm`. -/
def hybridFile : Bytes :=
  b!"%PDF-1.4\n1 0 obj\n<< /Type /Catalog >>\nendobj\n2 0 obj\n12\nendobj\n" ++
  b!"3 0 obj\n<< /Type /XRef /Size 4 /Root 1 0 R /W [ 1 2 1 ] /Index [ 1 1 ] " ++
  b!"/Filter /ASCIIHexDecode /Length 8 >>\nstream\n01000900\nendstream\nendobj\n" ++
  b!"xref\n0 1\n0000000000 65535 f\n2 1\n0000000045 00000 n\n" ++
  b!"trailer\n<< /Root 1 0 R /Size 4 /XRefStm 63 >>\nstartxref\n204\n%%EOF\n"

/-- The file of `C23` followed by an empty revision. -/
def emptyRevFile : Bytes :=
  mapFile ++ b!"xref\n0 1\n0000000000 65535 f\n" ++
  b!"trailer\n<< /Root 1 0 R /Size 3 /Prev 63 >>\nstartxref\n182\n%%EOF\n"

/-- A file whose greatest object number is that of an object in an object stream: 4, right after that
of the cross-reference stream. -/
def high4File : Bytes :=
  b!"%PDF-1.4\n1 0 obj\n<< /Type /Catalog >>\nendobj\n" ++
  b!"2 0 obj\n<< /Type /ObjStm /N 1 /First 4 /Length 7 >>\nstream\n4 0 14 \nendstream\nendobj\n" ++
  b!"3 0 obj\n<< /Type /XRef /Size 5 /Root 1 0 R /W [ 1 2 1 ] /Index [ 1 3 4 1 ] " ++
  b!"/Filter /ASCIIHexDecode /Length 32 >>\nstream\n0100090001002d000100810002000200\nendstream\nendobj\n" ++
  b!"startxref\n129\n%%EOF\n"

/-- The same with number 5. -/
def high5File : Bytes :=
  b!"%PDF-1.4\n1 0 obj\n<< /Type /Catalog >>\nendobj\n" ++
  b!"2 0 obj\n<< /Type /ObjStm /N 1 /First 4 /Length 7 >>\nstream\n5 0 14 \nendstream\nendobj\n" ++
  b!"3 0 obj\n<< /Type /XRef /Size 6 /Root 1 0 R /W [ 1 2 1 ] /Index [ 1 3 5 1 ] " ++
  b!"/Filter /ASCIIHexDecode /Length 32 >>\nstream\n0100090001002d000100810002000200\nendstream\nendobj\n" ++
  b!"startxref\n129\n%%EOF\n"

/-- Two revisions: object 2 is in the object stream 3; the second revision replaces object 1. -/
def twoRevFile : Bytes :=
  b!"%PDF-1.5\n1 0 obj\n<< /Type /Catalog >>\nendobj\n" ++
  b!"3 0 obj\n<< /Type /ObjStm /N 1 /First 4 /Length 7 >>\nstream\n2 0 14 \nendstream\nendobj\n" ++
  b!"4 0 obj\n<< /Type /XRef /Size 5 /Root 1 0 R /W [ 1 2 1 ] /Index [ 1 4 ] /Filter /ASCIIHexDecode /Length 32 >>\nstream\n010009000200030001002d0001008100\nendstream\nendobj\n" ++
  b!"startxref\n129\n%%EOF\n" ++
  b!"1 0 obj\n<< /Type /Catalog /New true >>\nendobj\n" ++
  b!"xref\n1 1\n0000000315 00000 n\ntrailer\n<< /Root 1 0 R /Size 5 /Prev 129 >>\nstartxref\n361\n%%EOF\n"

end Pdf
