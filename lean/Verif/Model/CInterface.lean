import Verif.Model.Parser
/-
The C interface, libwaterbear/src/lib.rs: the arguments are read from memory and handed to run_command.
Memory is a function from addresses to bytes.  Reading memory that does not belong to the caller's arguments (undefined
behaviour in the code) is not modelled: such a byte has some value here.
-/
namespace Verif

/-- CStr::from_ptr, libwaterbear/src/lib.rs 12: the bytes up to the first 0.  The fuel bounds the search. -/
def cBytes (mem : Nat → UInt8) : Nat → Nat → Res (List UInt8)
  | 0, _ => .loop
  | fuel + 1, p =>
    if mem p = 0 then .ok []
    else do
      let rest ← cBytes mem fuel (p + 1)
      .ok (mem p :: rest)

/-- One argument, libwaterbear/src/lib.rs 12: to_str().unwrap() panics if the bytes are not UTF-8. -/
def cArgument (mem : Nat → UInt8) (fuel p : Nat) : Res Text := do
  let bs ← cBytes mem fuel p
  match decodeUtf8 bs with
  | some t => .ok t
  | none => .panic

/-- waterbear_invoke_command_line, libwaterbear/src/lib.rs 9–15: the arguments given to run_command.  The array of pointers is
the list `ptrs` (slice::from_raw_parts of `len` pointers). -/
def cArguments (mem : Nat → UInt8) (fuel : Nat) : List Nat → Res (List Text)
  | [] => .ok []
  | p :: ps => do
    let a ← cArgument mem fuel p
    let as ← cArguments mem fuel ps
    .ok (a :: as)

end Verif
