import Verif.Model.Api
import Verif.Model.Traits
import Verif.Proof.Basic

/-! # Recorded solutions

Nine of the files in /repo/data hold, besides an instance, a solution and its metrics as another solver wrote them (prices, executed amounts,
`objVals`). Here the model of the metrics is evaluated on these solutions: volume, fees and number of touched orders are the recorded ones,
and the arithmetic of `StandardSolverIntegerTraits` gives the recorded utility and disregarded utility, to the last digit. The arithmetic now
bound to `IntegerTraits` gives a few units more utility, and more disregarded utility by the factor of C79. (data/token_pair-2-1-1.json and
data/token_pair-2-2-3.json hold the solution of a different instance.) This checks the model, it is not part of any proof. -/

namespace Dex

namespace Recorded

structure Entry where
  prices : Prices
  accounts : Accounts
  orders : List Order
  volume : ℚ
  utility : ℚ
  utilityDisreg : ℚ
  fees : ℚ
  ordersTouched : ℕ

def fee : Fee := { token := "token0", value := 1 / 1000 }

def order (account id buyToken sellToken : String) (sellAmount buyAmount sell buy : ℚ) : Order :=
  { Order.mk' buyToken sellToken sellAmount (sellAmount / buyAmount) (some account) id with sell, buy }

/-- Utility and disregarded utility by the arithmetic of the standard solver. -/
def stdTerms (e : Entry) (o : Order) : Py (ℚ × ℚ) := do
  let pb ← dictGet e.prices o.buyToken
  let ps ← dictGet e.prices o.sellToken
  let u ← stdUtility o (pb / ps) pb fee
  let bal ← balanceUpdated e.accounts o
  let umax ← stdMaxUtility o (pb / ps) pb fee bal
  pure (u, max (umax - u) 0)

/-- Everything recorded is what the model computes. -/
def agrees (e : Entry) : Bool :=
  pyCheck (do
    let m ← computeSolutionMetrics e.prices e.accounts e.orders fee
    let ts ← mapE (stdTerms e) e.orders
    pure (m, (ts.map (·.1)).sum, (ts.map (·.2)).sum))
    (fun r : Metrics × ℚ × ℚ => r.1.volume = e.volume ∧ r.1.fees = e.fees ∧ r.1.ordersTouched = e.ordersTouched ∧ r.2.1 = e.utility ∧
      r.2.2 = e.utilityDisreg ∧ e.utility ≤ r.1.utility ∧ r.1.utility ≤ e.utility + e.orders.length ∧
      r.1.utilityDisreg * (1 - fee.value) ≤ e.utilityDisreg + e.orders.length * (e.prices.map (·.2)).sum ∧
      e.utilityDisreg ≤ r.1.utilityDisreg * (1 - fee.value) + e.orders.length * (e.prices.map (·.2)).sum)

/-- /repo/data/token_pair-1-1-1.json -/
def r1_1_1 : Entry where
  prices := [("token0", 1000000000000000000), ("token1", 631984154375512575)]
  accounts := [("A", [("token0", 15000000000000000000), ("token1", 15000000000000000000)]),
    ("B", [("token0", 15000000000000000000), ("token1", 15000000000000000000)])]
  orders := [order "A" "0" "token0" "token1" 400000000000000000 200000000000000000 316131360878463218 199590220765579220,
    order "B" "1" "token1" "token0" 200000000000000000 100000000000000000 199990000777132707 316131360878463218]
  volume := 399780011553488282009573557033966350
  utility := 178119295340356027736974566072821087
  utilityDisreg := 11023157310547539733025433927178913
  fees := 399780011553487
  ordersTouched := 2

/-- /repo/data/token_pair-1-1-2.json -/
def r1_1_2 : Entry where
  prices := [("token0", 1000000000000000000), ("token1", 1498502497137836251)]
  accounts := [("A", [("token0", 15000000000000000000), ("token1", 15000000000000000000)]),
    ("B", [("token0", 15000000000000000000), ("token1", 15000000000000000000)])]
  orders := [order "A" "0" "token0" "token1" 200000000000000000 200000000000000000 199993000060001310 299390319989999400,
    order "B" "1" "token1" "token0" 300000000000000000 150000000000000000 299989999999999397 199993000060001310]
  volume := 599680009999998795212784425625488810
  utility := 174319447871808191542542312683118486
  utilityDisreg := 5976485656053757257687316881514
  fees := 599680009999997
  ordersTouched := 2

/-- /repo/data/token_pair-1-1-3.json -/
def r1_1_3 : Entry where
  prices := [("token0", 1000000000000000000), ("token1", 14984257425100571464)]
  accounts := [("A", [("token0", 3000000000000000000000), ("token1", 3000000000000000000000)]),
    ("B", [("token0", 3000000000000000000000), ("token1", 3000000000000000000000)])]
  orders := [order "A" "0" "token0" "token1" 1000000000000000000 10000000000000000000 999999200000000350 14969261192256942000,
    order "B" "1" "token1" "token0" 15000000000000000000 1000000000000000000 14999244682377013641 999999200000000350]
  volume := 29983490120071650269032927585200012400
  utility := 4970011729764373174960833872745123038
  utilityDisreg := 4012810526253575166127254876962
  fees := 29983490120071641
  ordersTouched := 2

/-- /repo/data/token_pair-1-1-4.json -/
def r1_1_4 : Entry where
  prices := [("token0", 1000000000000000000), ("token1", 500018731584789768)]
  accounts := [("A", [("token0", 15000000000000000000), ("token1", 15000000000000000000)]),
    ("B", [("token0", 15000000000000000000), ("token1", 15000000000000000000)])]
  orders := [order "A" "0" "token0" "token1" 400400000000000000 200000000000000000 293375610353884 146546607266496,
    order "B" "1" "token1" "token0" 200215000000000000 400000000000000000 146840140707770 293375610353884]
  volume := 293533441274832593716910222258912
  utility := 10691664342605616382768250078
  utilityDisreg := 14574300843023478476417231749922
  fees := 293533441274
  ordersTouched := 2

/-- /repo/data/token_pair-1-2-1.json -/
def r1_2_1 : Entry where
  prices := [("token0", 1000000000000000000), ("token1", 14984948128252317352)]
  accounts := [("a1", [("token0", 15000000000000000000), ("token1", 3000000000000000000000)]),
    ("a2", [("token0", 13000000000000000000), ("token1", 3000000000000000000000)]),
    ("a3", [("token0", 1000000000000000000), ("token1", 3000000000000000000000)])]
  orders := [order "a3" "0" "token0" "token1" 1000000000000000000 10000000000000000000 999999210528947811 14969951361771482000,
    order "a2" "1" "token1" "token0" 13000000000000000000 1000000000000000000 0 0,
    order "a1" "2" "token1" "token0" 15000000000000000000 1000000000000000000 14999936234303855398 999999210528947811]
  volume := 29984872532373406941056902439017716472
  utility := 4970011128009177331706822752256765398
  utilityDisreg := 3923862570350941177247743234602
  fees := 29984872532373398
  ordersTouched := 2

/-- /repo/data/token_pair-2-2-1.json -/
def r2_2_1 : Entry where
  prices := [("token0", 1000000000000000000), ("token1", 1997990010115587564)]
  accounts := [("A", [("token0", 15000000000000000000), ("token1", 15000000000000000000)]),
    ("B", [("token0", 15000000000000000000), ("token1", 15000000000000000000)]),
    ("C", [("token0", 15000000000000000000), ("token1", 15000000000000000000)]),
    ("D", [("token0", 15000000000000000000), ("token1", 15000000000000000000)])]
  orders := [order "A" "0" "token0" "token1" 600000000000000000 200000000000000000 599993913095652133 1197583062650777700,
    order "B" "1" "token0" "token1" 800000000000000000 400000000000000000 799993913052173806 1596781466585089700,
    order "C" "2" "token1" "token0" 2000000000000000000 1000000000000000000 799971652578298412 399987826205140283,
    order "D" "3" "token1" "token0" 2000000000000000000 400000000000000000 1999990000001075152 999999999942685656]
  volume := 5597123343506167755794952094185022596
  utility := 3393171599424497349162953625657493132
  utilityDisreg := 31214561340828247446374342506868
  fees := 5597123343506164
  ordersTouched := 4

/-- /repo/data/token_pair-2-2-2.json -/
def r2_2_2 : Entry where
  prices := [("token0", 1000000000000000000), ("token1", 1110450733843506190)]
  accounts := [("A", [("token0", 15000000000000000000), ("token1", 15000000000000000000)]),
    ("B", [("token0", 15000000000000000000), ("token1", 15000000000000000000)]),
    ("C", [("token0", 15000000000000000000), ("token1", 15000000000000000000)]),
    ("D", [("token0", 15000000000000000000), ("token1", 15000000000000000000)])]
  orders := [order "A" "0" "token0" "token1" 250000000000000000 100000000000000000 249990713177172028 277324768530750500,
    order "B" "1" "token0" "token1" 200000000000000000 100000000000000000 199808642352107949 221655775874644770,
    order "C" "2" "token1" "token0" 200000000000000000 100000000000000000 199990004431132579 179917945333050220,
    order "D" "3" "token1" "token0" 300000000000000000 100000000000000000 299990000003126774 269881410196229757]
  volume := 999460028864084447068831527842557630
  utility := 576479066914277114705251513052731938
  utilityDisreg := 133913716369855009248486947268062
  fees := 999460028864083
  ordersTouched := 4

/-- /repo/data/token_pair-3-2-1.json -/
def r3_2_1 : Entry where
  prices := [("token0", 1000000000000000000), ("token1", 903640948385091937)]
  accounts := [("A", [("token0", 15000000000000000000), ("token1", 15000000000000000000)]),
    ("B", [("token0", 15000000000000000000), ("token1", 15000000000000000000)]),
    ("C", [("token0", 15000000000000000000), ("token1", 15000000000000000000)]),
    ("D", [("token0", 15000000000000000000), ("token1", 15000000000000000000)]),
    ("E", [("token0", 15000000000000000000), ("token1", 15000000000000000000)])]
  orders := [order "A" "0" "token0" "token1" 150000000000000 100000000000000 139325607209302 125774423509110,
    order "B" "1" "token0" "token1" 1200000000000000 1000000000000000 1189325681162795 1073648663078229,
    order "C" "2" "token0" "token1" 900000000000000 1000000000000000 0 0,
    order "D" "3" "token1" "token0" 2000000000000000 2200000000000000 1011825513193969 1118601021221109,
    order "E" "4" "token1" "token0" 200000000000000 140000000000000 190000022639500 210050267150988]
  volume := 2402449246131105008064712410481889
  utility := 190114401010194919428430604929756
  utilityDisreg := 11861144808244188826619395070244
  fees := 2402449246130
  ordersTouched := 4

/-- /repo/data/token_pair-3-7.json -/
def r3_7 : Entry where
  prices := [("token0", 1000000000000000000), ("token1", 61813097532160074)]
  accounts := [("0x1f9d", [("token1", 553702464000000000000)]),
    ("0x2ee2", [("token1", 526228070000000000000), ("token0", 91000000000000000)]),
    ("0x3768", [("token1", 498389062000000000000)]),
    ("0x506d", [("token1", 518140665000000000000)]),
    ("0x7810", [("token1", 533443071000000000000), ("token0", 18035000000000000000)]),
    ("0x8812", [("token1", 245473200000000000000)]),
    ("0xd08c", [("token0", 31343000000000000000)]),
    ("0xd8db", [("token1", 103112782000000000000)])]
  orders := [order "0x2ee2" "0" "token0" "token1" 526228070000000000000 32607000030981813675 0 0,
    order "0x7810" "1" "token0" "token1" 533443071000000000000 32798000000000000000 533442912285088028856 32940785006152740000,
    order "0x1f9d" "2" "token0" "token1" 553702464000000000000 34176000000000000000 266055948043872388371 16429296523181750000,
    order "0x506d" "3" "token0" "token1" 518140665000000000000 32085000000000000000 0 0,
    order "0x8812" "4" "token0" "token1" 245473200000000000000 15300000000000000000 0 0,
    order "0x3768" "5" "token0" "token1" 498389062000000000000 31124999968774395003 0 0,
    order "0xd8db" "6" "token0" "token1" 103112782000000000000 6684999967584038380 0 0,
    order "0x2ee2" "7" "token1" "token0" 91000000000000000 1371066666666666970 90989998846180299 1470546089363039092,
    order "0xd08c" "8" "token1" "token0" 31343000000000000000 469846495238095223170 31342990001519032521 506553598858667651541,
    order "0x7810" "9" "token1" "token0" 18035000000000000000 268120333333333213100 18034990000000007253 291474715380929726594]
  volume := 98888471030730074927788261993591194798
  utility := 3869168516074154461013183210206329815
  utilityDisreg := 8230209972261797293965160557630425
  fees := 98888471030730073
  ordersTouched := 5

end Recorded

example : Recorded.agrees Recorded.r1_1_1 = true := by decide +kernel
example : Recorded.agrees Recorded.r1_1_2 = true := by decide +kernel
example : Recorded.agrees Recorded.r1_1_3 = true := by decide +kernel
example : Recorded.agrees Recorded.r1_1_4 = true := by decide +kernel
example : Recorded.agrees Recorded.r1_2_1 = true := by decide +kernel
example : Recorded.agrees Recorded.r2_2_1 = true := by decide +kernel
example : Recorded.agrees Recorded.r2_2_2 = true := by decide +kernel
example : Recorded.agrees Recorded.r3_2_1 = true := by decide +kernel
example : Recorded.agrees Recorded.r3_7 = true := by decide +kernel

end Dex
