import Verif.Props.TwoOrders

/-! Evaluates the model on an instance (see validate.py). The branching is found by trying all sets of edges; `math.sqrt` is the one of
`ExDouble` (correctly rounded to a double). Pairs are visited in the order of the list, without time limit. -/

open Dex
def acyc (br : List (Token × Token)) : Bool :=
  let rec up (n : Nat) (t : Token) (s : Token) : Bool := match n with
    | 0 => false
    | n+1 => match br.find? (fun e => e.2 == t) with
      | none => true
      | some e => if e.1 == s then false else up n e.1 s
  br.all fun e => up 10 e.2 e.2
def bruteBranch (E : List (Token × Token)) : List (Token × Token) :=
  let c := E.sublists.filter fun l => decide ((l.map (·.2)).Nodup) && acyc l
  c.foldl (fun a l => if l.length > a.length then l else a) []
def eB : Ext := { sqrt := ExDouble.sqrt, branch := bruteBranch, fdiv := fun q n => .ok (q / n) }
def errS : PyErr → String | .assertion s => s | .valueError => "value" | .typeError => "type" | .zeroDivision => "zd" | .keyError => "key" | .diverge => "div" | .overflow => "ov" | _ => "other"
def rd (n : String) : IO Instance := do
  let ls := (← IO.FS.lines n).toList
  let mut acc : Array (AccountId × Dict Token ℚ) := #[]
  let mut os : Array OrderDict := #[]
  for l in ls.drop 1 do
    match l.splitOn " " with
    | "A" :: a :: r => acc := acc.push (a, r.filterMap fun s => match s.splitOn "=" with | [t, v] => some (t, ((v.toNat!) : ℚ)) | _ => none)
    | ["O", a, st, bt, sa, ba] => os := os.push { accountID := a, sellToken := st, buyToken := bt, sellAmount := (sa.toNat! : ℚ), buyAmount := (ba.toNat! : ℚ) }
    | _ => throw (IO.userError l)
  return { accounts := acc.toList, orders := os.toList, fee := { token := ls.head!, value := 1 / 1000 } }
def sh (d : Dump) : String :=
  s!"executed {d.orders.length}, prices {d.prices}, utility {d.objVals.utility}, disregarded {d.objVals.utilityDisreg}, of touched orders {d.objVals.utilityDisregTouched}, fees {d.objVals.fees}"
def tp (n : String) : IO Unit := do
  let i ← rd n
  match tokenPairMain Config.default eB i ("token0", "token1") none with
  | .ok d => IO.println s!"{i.orders.length} orders; {sh d}"
  | .error e => IO.println s!"error {errS e}"
def bp (n : String) : IO Unit := do
  let i ← rd n
  match bestTokenPairMain Config.default eB i (fun l => l.map (·, false)) with
  | .ok d => IO.println s!"{i.orders.length} orders; {sh d}"
  | .error e => IO.println s!"error {errS e}"
def main (args : List String) : IO Unit := do
  match args with
  | [k, n] => if k == "tp" then tp n else bp n
  | _ => pure ()
