{
 "C01": {
  "note": "decode_encode for the 70-form table generated from src/instruction.rs."
 },
 "C04": {
  "note": "Non-empty input; on the empty string the generated decoder panics (C04_decode_empty)."
 },
 "C06": {
  "note": "next < 2^31: the position is cast to i32 by the code."
 },
 "C07": {
  "note": "All forms whose last operand is r8."
 },
 "C08": {
  "note": ""
 },
 "C09": {
  "note": "Includes jmpf/callf."
 },
 "C63": {
  "status": "partial",
  "note": "Proved for all lines that are not followed by the final line break of the text, for texts of two bytes or more. For the last line of a text ending in a line break the excerpt also contains the line break (C63_last_line, counterexample C63_final_newline), and in a one-byte text the checked build panics (C63_one_byte). The carets are proved for all spans."
 },
 "C60": {
  "note": "Year must fit 16 bits. VMS files shorter than the description field make the command panic (C60_short)."
 },
 "C72": {
  "status": "partial",
  "note": "C72_report_partial assumes that no shown place is at the very beginning of a file with exactly one byte (in a build with overflow checks, or if this byte is a carriage return). For exactly these places reporting panics (C72_panics, concrete case C72_one_byte), so the property is false there. The grapheme segmentation is assumed to treat line breaks as Unicode does (BreaksLines). The sentences before and after the excerpts are C83."
 }
}