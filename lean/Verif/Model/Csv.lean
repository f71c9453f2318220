import Verif.Py.Str
/-! # CSV output: `MetatabDoc.as_csv` (metatab/doc.py:836-847)

`as_csv` hands the rows to Python's `csv.writer` with the default `excel` dialect and `QUOTE_MINIMAL`; the writer and the standard
reader (`csv.reader` over text opened with `newline=''`) are library code that is modelled here and trusted. -/
namespace Metatab
open Py

/-- `csv.writer`: a field is quoted when it holds the delimiter, the quote or a line terminator character. -/
def csvNeedsQuote (f : Str) : Bool := f.any fun c => c == ',' || c == '"' || c == '\r' || c == '\n'

/-- `csv.writer`: one field, quotes doubled. -/
def csvField (f : Str) : Str :=
  if csvNeedsQuote f then '"' :: (f.flatMap fun c => if c = '"' then ['"', '"'] else [c]) ++ ['"'] else f

/-- `csv.writer.writerow`: a row holding one empty field is written as `""`. -/
def csvRow (r : List Str) : Str := (if r = [[]] then ['"', '"'] else join [','] (r.map csvField)) ++ ['\r', '\n']

/-- `MetatabDoc.as_csv`, metatab/doc.py:836-847, on the rows. -/
def asCsv (rows : List (List Str)) : Str := rows.flatMap csvRow

/-- States of `csv.reader`. `startRec b`: at the start of a record, `b` when the previous character was a carriage return that ended
the previous record. -/
inductive CsvSt | startRec (afterCR : Bool) | startField | inField | inQuoted | quoteInQuoted

/-- `csv.reader` over the characters of a text: state, current field, fields so far. -/
def csvRead : CsvSt → Str → List Str → Str → List (List Str)
  | .startRec _, _, _, [] => []
  | _, f, row, [] => [row ++ [f]]
  | .startRec b, f, row, c :: cs =>
    if c = '\n' then (if b then csvRead (.startRec false) [] [] cs else [] :: csvRead (.startRec false) [] [] cs)
    else if c = '\r' then [] :: csvRead (.startRec true) [] [] cs
    else if c = '"' then csvRead .inQuoted f row cs
    else if c = ',' then csvRead .startField [] (row ++ [f]) cs
    else csvRead .inField (f ++ [c]) row cs
  | .startField, f, row, c :: cs =>
    if c = '\n' ∨ c = '\r' then (row ++ [f]) :: csvRead (.startRec (c = '\r')) [] [] cs
    else if c = '"' then csvRead .inQuoted f row cs
    else if c = ',' then csvRead .startField [] (row ++ [f]) cs
    else csvRead .inField (f ++ [c]) row cs
  | .inField, f, row, c :: cs =>
    if c = '\n' ∨ c = '\r' then (row ++ [f]) :: csvRead (.startRec (c = '\r')) [] [] cs
    else if c = ',' then csvRead .startField [] (row ++ [f]) cs
    else csvRead .inField (f ++ [c]) row cs
  | .inQuoted, f, row, c :: cs =>
    if c = '"' then csvRead .quoteInQuoted f row cs
    else csvRead .inQuoted (f ++ [c]) row cs
  | .quoteInQuoted, f, row, c :: cs =>
    if c = '"' then csvRead .inQuoted (f ++ [c]) row cs
    else if c = ',' then csvRead .startField [] (row ++ [f]) cs
    else if c = '\n' ∨ c = '\r' then (row ++ [f]) :: csvRead (.startRec (c = '\r')) [] [] cs
    else csvRead .inField (f ++ [c]) row cs

/-- Read a CSV text. -/
def readCsv (text : Str) : List (List Str) := csvRead (.startRec false) [] [] text

end Metatab
