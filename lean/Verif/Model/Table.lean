import Verif.Model.Basic

/-!
# The tables the benches print

The rows that `benches/benches/poly_commit.rs` and `benches/benches/groth16_aggregation/bench.rs` write to standard output
through `csv::Writer`, and those that `sipp/examples/scaling-ipp.rs` writes to a file, for runs that end. The clock is a parameter: `time` gives the elapsed milliseconds for a scheme, a
function, a degree or number of proofs, and a trial.
-/

namespace Ripp.Table

/-- `Writer::write_record(…).unwrap()` of the crate `csv` with default settings: a record that does not have as many fields
as the one before is an error. The state is the number of fields of the previous record. -/
def writeRecord (width : Option ℕ) (record : List String) : Res (Option ℕ) :=
  if width = none ∨ width = some record.length then .ok (some record.length) else panic' .unwrap

/-- A sequence of `write_record(…).unwrap()`. -/
def writeAll : Option ℕ → List (List String) → Res (Option ℕ)
  | w, [] => .ok w
  | w, r :: rs => do writeAll (← writeRecord w r) rs

/-- The line that `csv::Writer` writes for fields that need no quotation marks. -/
def line (record : List String) : String := String.intercalate "," record ++ "\n"

/-- One record of the polynomial commitment bench, `poly_commit.rs:59-65`, and likewise at all other places. -/
def polyRecord (trial : ℕ) (scheme function : String) (degree time : ℕ) : List String :=
  [toString trial, scheme, function, toString degree, toString time]

/-- The records of one scheme and degree: set-up once, then commit, open and verify per trial; the time of `verify` is that of
50 runs divided by 50. `poly_commit.rs:53-121`, `124-196` and `199-275`. -/
def polyScheme (time : String → String → ℕ → ℕ → ℕ) (numTrials degree : ℕ) (scheme : String) : List (List String) :=
  polyRecord 1 scheme "setup" degree (time scheme "setup" degree 1) ::
    (List.range numTrials).flatMap fun j =>
      [polyRecord (j + 1) scheme "commit" degree (time scheme "commit" degree (j + 1)),
       polyRecord (j + 1) scheme "open" degree (time scheme "open" degree (j + 1)),
       polyRecord (j + 1) scheme "verify" degree (time scheme "verify" degree (j + 1) / 50)]

/-- All records, `poly_commit.rs:43-279`; the degrees are those of line 51 for up to 31 data points. -/
def polyTable (time : String → String → ℕ → ℕ → ℕ) (numTrials numDataPoints : ℕ) : List (List String) :=
  ["trial", "scheme", "function", "degree", "time"] ::
    ((List.range numDataPoints).map fun i => 4 ^ (i + 1) - 1).flatMap fun degree =>
      polyScheme time numTrials degree "kzg" ++ polyScheme time numTrials degree "ipa" ++
        polyScheme time numTrials degree "transparent_ipa"

/-- One record of the aggregation bench, `bench.rs:267-273`, and likewise at all other places. -/
def aggRecord (trial numProofs : ℕ) (scheme function : String) (time : ℕ) : List String :=
  [toString trial, toString numProofs, scheme, function, toString time]

/-- The records of one way of aggregating: `bench.rs:342-399` and `402-466`. -/
def aggScheme (time : String → String → ℕ → ℕ) (numTrials numProofs : ℕ) (scheme : String) : List (List String) :=
  aggRecord 1 numProofs scheme "setup" (time scheme "setup" 1) ::
    (List.range numTrials).flatMap fun j =>
      [aggRecord (j + 1) numProofs scheme "aggregate" (time scheme "aggregate" (j + 1)),
       aggRecord (j + 1) numProofs scheme "verify" (time scheme "verify" (j + 1))]

/-- All records, `bench.rs:241-526`. -/
def aggTable (time : String → String → ℕ → ℕ) (numTrials numProofs : ℕ) (recursion all monolithic : Bool) :
    List (List String) :=
  ["trial", "num_proofs", "scheme", "function", "time"] ::
    ((if all then [aggRecord 1 numProofs "single_circuit" "setup" (time "single_circuit" "setup" 1),
        aggRecord 1 numProofs "single_circuit" "prove" (time "single_circuit" "prove" 1)] else []) ++
      [aggRecord 1 numProofs "single_circuit" "verify" (time "single_circuit" "verify" 1)] ++
      aggScheme time numTrials numProofs "ipa" ++
      (if recursion then aggScheme time numTrials numProofs "olr" else []) ++
      (if monolithic then [aggRecord 1 numProofs "complete_circuit" "setup" (time "complete_circuit" "setup" 1),
        aggRecord 1 numProofs "complete_circuit" "prove" (time "complete_circuit" "prove" 1),
        aggRecord 1 numProofs "complete_circuit" "verify" (time "complete_circuit" "verify" 1)] else []))

/-- The file that the SIPP example writes, `sipp/examples/scaling-ipp.rs:53-101`: `Writer::serialize` writes the names of the
fields (lines 14-19) before the first record only. `time` gives the texts of the three averages for `2^i` pairs. -/
def scalingTable (time : ℕ → String × String × String) (lo hi : ℕ) : List (List String) :=
  match (List.range (hi + 1)).drop lo with
  | [] => []
  | i :: is => ["size", "direct", "prover", "verifier"] ::
      (i :: is).map fun i => [toString (2 ^ i), (time i).1, (time i).2.1, (time i).2.2]

end Ripp.Table
