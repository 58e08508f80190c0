{
 "C17": [
  "proved",
  "Proves the defect: NewSeed accepts the integer and the plaintext encoder panics."
 ],
 "C28": [
  "proved",
  "Proves the defect; the wrap modulo 2^32 is proved under the explicit hypothesis that the float64-to-uint32 conversion wraps, as on amd64."
 ],
 "C36": [
  "proved",
  "Includes the proof of the defect for passwords above 65011704 bytes."
 ],
 "C40": [
  "proved",
  "Values are non-negative integers, as in every use inside the package except the one of C17."
 ]
}