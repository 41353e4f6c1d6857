{
 "C57": {
  "note": "holds for factories with faithful creators (C57_standard: the standard ones); C57_unfaithful and C57_unfaithful_kind are witnesses that the condition is needed"
 },
 "C58": {
  "note": "the unconditional claim is false (C58_drift is a witness); C58_reported gives the exact condition"
 },
 "C60": {
  "note": "the unconditional claim is false (C60_for_ever, C60_panics); C60_forward is what holds"
 },
 "C10": {
  "note": "uniqueness of encodings holds exactly as C10_unique_iff says; the exact set of accepted forms is proved"
 },
 "C16": {
  "note": "bytes_written fails after set_offset before the start (C16_bytes_written_underflow); the stated conditional claim is proved in full"
 },
 "C19": {
  "note": "the documented claim is false for skips above 512 bytes (witness); what holds is proved"
 },
 "C23": {
  "note": "conditional on position + count < 2^64; C23_overflow says what happens otherwise"
 },
 "C24": {
  "note": "available underflows past the end: stated and proved as such"
 },
 "C53": {
  "note": "reflexivity needs a tag that serializes; stated with that condition"
 },
 "C62": {
  "note": "the bounded-stack claim is false; the lower and the upper bound are proved"
 },
 "C63": {
  "note": "the claim of proportional memory is false; witnesses and bounds are proved"
 },
 "C71": {
  "note": "the documented all-or-nothing of read_all is false for the default method (C71_not_all_or_nothing)"
 },
 "C73": {
  "note": "linear work is false (exponential lower bound); upper bound proved"
 },
 "C76": {
  "note": "both bounds and the family that reaches the upper one are proved"
 }
}