import Verif.Model.Ascending
import Verif.Model.TradeReduction
import Verif.Model.McAfee

set_option autoImplicit false

/-!
# The model agrees with recorded outputs of the code

Generated by tools/recorded.py from `stock/diff_in_sbbs_gft.txt` and from tables in `stock/results_bak`. Gains are recorded with two decimals.
The tables in `results_bak` were made with an older version of `trade_reduction_protocol.py`, so its columns are left out.
-/

namespace Auctions.Fidelity

open Auctions

inductive Protocol
  | mcafee
  | mcafeeWithoutHeuristic
  | tradeReduction
  | ascending

/-- A recorded run: recipe, values of the categories; deals of the optimal trade without and with sets that gain nothing, and its gain; for each
auction its deals, its gain and its gain without the auctioneer. -/
structure Run where
  recipe : List ℕ
  values : List (List ℚ)
  deals : ℕ
  dealsWithZero : ℕ
  gain : ℚ
  trades : List (Protocol × ℕ × ℚ × ℚ)

def Protocol.run (p : Protocol) (m : Market) (r : List ℕ) : Py (Option TradeWithSinglePrice) :=
  match p with
  | .mcafee => (McAfee.mcafeeTradeReduction m r).map some
  | .mcafeeWithoutHeuristic => (McAfee.mcafeeTradeReduction m r false).map some
  | .tradeReduction => (TradeReduction.tradeReduction m r).map some
  | .ascending => Ascending.auction m r 1000

/-- Equal up to the rounding to two decimals. -/
def close (x y : ℚ) : Bool := decide (-1 ≤ 200 * (x - y) ∧ 200 * (x - y) ≤ 1)

def agreesOn (m : Market) (r : List ℕ) (x : Protocol × ℕ × ℚ × ℚ) : Bool :=
  match x.1.run m r with
  | .ok (some t) =>
    match t.gainFromTrade true, t.gainFromTrade false with
    | .ok g, .ok h => t.numOfDeals == x.2.1 && close g x.2.2.1 && close h x.2.2.2
    | _, _ => false
  | _ => false

def Run.agrees (x : Run) : Bool :=
  match Market.init (x.values.map (AgentCategory.init "agent")) with
  | .ok m =>
    match m.optimalTrade x.recipe 10000000 false, m.optimalTrade x.recipe 10000000 true with
    | .ok (a, _), .ok (b, _) => a.numOfDeals == x.deals && b.numOfDeals == x.dealsWithZero && close a.gainFromTrade x.gain && close b.gainFromTrade x.gain
        && x.trades.all (agreesOn m x.recipe)
    | _, _ => false
  | _ => false

/-- `stock/diff_in_sbbs_gft.txt:1` -/
example : Run.agrees ⟨[4, 3, 2, 1], [[68625, 62767, 62235, 61597, 57465, 48282, 38722, 38626], [-18669, -18991, -19670, -22031, -24427, -29556], [-17038, -19277, -25164, -41695], [-23068, -78720]], 1, 1, 138511, [(.tradeReduction, 1, 110685, 110685), (.ascending, 1, (667191 / 5), (667191 / 5))]⟩ = true := by decide +kernel

/-- `stock/diff_in_sbbs_gft.txt:4` -/
example : Run.agrees ⟨[4, 3, 2, 1], [[65398, 60429, 57553, 55290, 52831, 41844, 34666, 26931], [-17525, -20801, -26251, -30865, -41309, -79120], [-21022, -22939, -24427, -39034], [-17682, -37195]], 1, 1, 112450, [(.tradeReduction, 1, (205387 / 2), (205387 / 2)), (.ascending, 1, (534904 / 5), (534904 / 5))]⟩ = true := by decide +kernel

/-- `stock/diff_in_sbbs_gft.txt:7` -/
example : Run.agrees ⟨[4, 3, 2, 1], [[146325, 100063, 77533, 68790, 59011, 35986, 35589, 33100, 31114, 27156, 25053, 21051], [-9048, -11731, -14148, -20922, -22753, -26094, -27896, -32331, -35939], [-12875, -17525, -30951, -40715, -44630, -50518], [-11087, -39155, -68690]], 1, 1, 316297, [(.tradeReduction, 1, (1346979 / 5), (1346979 / 5)), (.ascending, 1, (1424818 / 5), (1424818 / 5))]⟩ = true := by decide +kernel

/-- `stock/diff_in_sbbs_gft.txt:10` -/
example : Run.agrees ⟨[4, 3, 2, 1], [[117628, 77938, 62431, 60208, 57871, 54787, 44215, 36361, 36330, 36157, 29409, 27574, 25053, 23433, 18292, 15825], [-10951, -13040, -16173, -18426, -19699, -24749, -26194, -26680, -27124, -40110, -66239, -72169], [-15572, -17374, -17868, -26137, -26609, -28254, -34900, -65718], [-15000, -22210, -36444, -47750]], 2, 2, 294240, [(.tradeReduction, 1, (4071841 / 25), (4071841 / 25)), (.ascending, 1, (8781187 / 50), (8781187 / 50))]⟩ = true := by decide +kernel

/-- `stock/diff_in_sbbs_gft.txt:13` -/
example : Run.agrees ⟨[4, 3, 2, 1], [[127648, 97950, 68610, 67260, 58050, 37477, 37005, 35064, 34891, 34581, 34066, 33003, 32842, 31480, 20439, 19537], [-13061, -16044, -27582, -27675, -27753, -31030, -32322, -41595, -65019, -70680, -79099, -95660], [-12746, -18240, -18404, -30672, -34334, -34663, -42694, -70150], [-15679, -20743, -25228, -37288]], 2, 2, 269435, [(.tradeReduction, 1, (2057999 / 10), (2057999 / 10)), (.ascending, 1, (22373723 / 100), (22373723 / 100))]⟩ = true := by decide +kernel

/-- `stock/diff_in_sbbs_gft.txt:16` -/
example : Run.agrees ⟨[4, 3, 2, 1], [[134278, 103035, 100875, 95638, 78313, 61093, 61080, 42327, 34774, 34054, 33808, 33186, 26071, 21361, 21201, 14001], [-18419, -22417, -23047, -23490, -24678, -26552, -26659, -37270, -37349, -39341, -71290, -73050], [-16022, -21809, -21816, -24949, -27310, -39630, -41970, -74481], [-37349, -50071, -69760, -78610]], 2, 2, 366020, [(.tradeReduction, 1, (414309 / 2), (414309 / 2)), (.ascending, 1, (21811973 / 100), (21811973 / 100))]⟩ = true := by decide +kernel

/-- `stock/diff_in_sbbs_gft.txt:19` -/
example : Run.agrees ⟨[4, 3, 2, 1], [[123859, 117870, 105673, 100528, 78465, 71263, 63090, 59790, 58708, 54120, 47499, 45825, 34344, 33292, 24730, 20289], [-10100, -14885, -15579, -15586, -21859, -22682, -26366, -27088, -31339, -32553, -33125, -43700], [-11673, -20350, -20493, -26294, -27095, -41316, -41529, -51502], [-8869, -25135, -25672, -42918]], 3, 3, 534309, [(.tradeReduction, 2, (21553789 / 50), (21553789 / 50)), (.ascending, 2, (8647121 / 20), (8647121 / 20))]⟩ = true := by decide +kernel

/-- `stock/diff_in_sbbs_gft.txt:22` -/
example : Run.agrees ⟨[4, 3, 2, 1], [[128173, 118063, 98970, 98577, 93885, 70740, 63196, 52239, 47413, 41362, 39162, 35653, 25450, 21405, 18927, 18015], [-8669, -11752, -21952, -24964, -25379, -34105, -38412, -39630, -52830, -61849, -65480, -68269], [-11301, -15357, -18168, -21695, -26688, -31745, -33941, -78900], [-23090, -41119, -78489, -89110]], 2, 2, 466292, [(.tradeReduction, 1, (25499821 / 100), (25499821 / 100)), (.ascending, 1, (26615561 / 100), (26615561 / 100))]⟩ = true := by decide +kernel

/-- `stock/diff_in_sbbs_gft.txt:25` -/
example : Run.agrees ⟨[4, 3, 2, 1], [[121168, 101383, 61104, 60600, 59010, 56995, 40911, 36544, 35653, 34506, 34431, 32928, 29430, 29388, 19323, 16233], [-12861, -20357, -22067, -24606, -31509, -32131, -36623, -39799, -40951, -43526, -59240, -75430], [-18555, -20608, -21695, -22896, -26473, -36788, -53400, -63540], [-25064, -28040, -30479, -38333]], 2, 2, 257326, [(.tradeReduction, 1, (333291 / 2), (333291 / 2)), (.ascending, 1, (725143 / 4), (725143 / 4))]⟩ = true := by decide +kernel

/-- `stock/results_bak/experiment_comparing_mcafee_to_sbb_stock_bak.csv`: 132 of its rows. -/
example : ([
    ⟨[1, 1], [[35765, 30758], [-32546, -30713]], 1, 1, 5052, [(.mcafee, 1, 5052, 5052), (.mcafeeWithoutHeuristic, 0, 0, 0), (.ascending, 1, 5052, 5052)]⟩, 
    ⟨[1, 1], [[35765, 30758, 31473], [-32546, -30713, -29551]], 2, 2, 6974, [(.mcafee, 1, 6214, 5454), (.mcafeeWithoutHeuristic, 1, 6214, 5454), (.ascending, 1, 5633, 5633)]⟩, 
    ⟨[1, 1], [[35765, 30758, 31473, 31205], [-32546, -30713, -29551, -30400]], 3, 3, 7779, [(.mcafee, 2, 7287, 6303), (.mcafeeWithoutHeuristic, 2, 7287, 6303), (.ascending, 2, (679533 / 100), (679533 / 100))]⟩, 
    ⟨[1, 1], [[35765, 30758, 31473, 31205, 29998], [-32546, -30713, -29551, -30400, -28701]], 4, 4, 9836, [(.mcafee, 3, 9791, 9656), (.mcafeeWithoutHeuristic, 3, 9791, 9656), (.ascending, 3, (35677 / 4), (35677 / 4))]⟩, 
    ⟨[1, 1], [[19650, 20010], [-19500, -19250]], 2, 2, 910, [(.mcafee, 1, 760, 610), (.mcafeeWithoutHeuristic, 1, 760, 610), (.ascending, 1, 635, 635)]⟩, 
    ⟨[1, 1], [[19650, 20010, 19990], [-19500, -19250, -19889]], 2, 2, 1250, [(.mcafee, 2, 1250, 1250), (.mcafeeWithoutHeuristic, 1, 760, 270), (.ascending, 2, 1250, 1250)]⟩, 
    ⟨[1, 1], [[19650, 20010, 19990, 19809], [-19500, -19250, -19889, -19490]], 3, 3, 1569, [(.mcafee, 3, 1569, 1569), (.mcafeeWithoutHeuristic, 2, 1260, 642), (.ascending, 2, (117333 / 100), (117333 / 100))]⟩, 
    ⟨[1, 1], [[19650, 20010, 19990, 19809, 19440], [-19500, -19250, -19889, -19490, -19280]], 4, 4, 1939, [(.mcafee, 3, 1789, 1339), (.mcafeeWithoutHeuristic, 3, 1789, 1339), (.ascending, 3, 1669, 1669)]⟩, 
    ⟨[1, 1], [[2500, 1979], [-2437, -1968]], 1, 1, 532, [(.mcafee, 1, 532, 532), (.mcafeeWithoutHeuristic, 0, 0, 0), (.ascending, 1, 532, 532)]⟩, 
    ⟨[1, 1], [[2500, 1979, 1770], [-2437, -1968, -1760]], 2, 2, 751, [(.mcafee, 1, 740, 729), (.mcafeeWithoutHeuristic, 1, 740, 729), (.ascending, 1, 636, 636)]⟩, 
    ⟨[1, 1], [[2500, 1979, 1770, 1750], [-2437, -1968, -1760, -1729]], 2, 2, 990, [(.mcafee, 2, 990, 990), (.mcafeeWithoutHeuristic, 1, 771, 552), (.ascending, 2, 990, 990)]⟩, 
    ⟨[1, 1], [[2500, 1979, 1770, 1750, 1645], [-2437, -1968, -1760, -1729, -1635]], 3, 3, 1125, [(.mcafee, 2, 1115, 1095), (.mcafeeWithoutHeuristic, 2, 1115, 1095), (.ascending, 2, 1063, 1063)]⟩, 
    ⟨[1, 1], [[837, 851], [-837, -835]], 1, 2, 16, [(.mcafee, 1, 16, 16), (.mcafeeWithoutHeuristic, 1, 16, 16), (.ascending, 1, 15, 15)]⟩, 
    ⟨[1, 1], [[837, 851, 853], [-837, -835, -839]], 2, 2, 32, [(.mcafee, 2, 32, 32), (.mcafeeWithoutHeuristic, 1, 18, 4), (.ascending, 2, 32, 32)]⟩, 
    ⟨[1, 1], [[837, 851, 853, 835], [-837, -835, -839, -831]], 2, 3, 38, [(.mcafee, 3, 38, 38), (.mcafeeWithoutHeuristic, 2, 38, 38), (.ascending, 2, (3533 / 100), (3533 / 100))]⟩, 
    ⟨[1, 1], [[837, 851, 853, 835, 829], [-837, -835, -839, -831, -814]], 3, 3, 61, [(.mcafee, 3, 61, 61), (.mcafeeWithoutHeuristic, 2, 59, 55), (.ascending, 3, 61, 61)]⟩, 
    ⟨[1, 1], [[4625, 4640], [-4625, -4640]], 1, 1, 15, [(.mcafee, 1, 15, 15), (.mcafeeWithoutHeuristic, 0, 0, 0), (.ascending, 1, 15, 15)]⟩, 
    ⟨[1, 1], [[4625, 4640, 4625], [-4625, -4640, -4625]], 1, 2, 15, [(.mcafee, 1, 15, 15), (.mcafeeWithoutHeuristic, 1, 15, 15), (.ascending, 1, 15, 15)]⟩, 
    ⟨[1, 1], [[4625, 4640, 4625, 4625], [-4625, -4640, -4625, -4625]], 1, 3, 15, [(.mcafee, 2, 15, 15), (.mcafeeWithoutHeuristic, 2, 15, 15), (.ascending, 2, 15, 15)]⟩, 
    ⟨[1, 1], [[4625, 4640, 4625, 4625, 4625], [-4625, -4640, -4625, -4625, -4625]], 1, 4, 15, [(.mcafee, 3, 15, 15), (.mcafeeWithoutHeuristic, 3, 15, 15), (.ascending, 3, 15, 15)]⟩, 
    ⟨[1, 1], [[16236, 16288], [-16133, -16236]], 1, 2, 155, [(.mcafee, 1, 155, 155), (.mcafeeWithoutHeuristic, 1, 155, 155), (.ascending, 1, (207 / 2), (207 / 2))]⟩, 
    ⟨[1, 1], [[16236, 16288, 16288], [-16133, -16236, -16288]], 2, 2, 207, [(.mcafee, 2, 207, 207), (.mcafeeWithoutHeuristic, 1, 155, 103), (.ascending, 2, 207, 207)]⟩, 
    ⟨[1, 1], [[16236, 16288, 16288, 16133], [-16133, -16236, -16288, -16133]], 2, 3, 310, [(.mcafee, 2, 310, 310), (.mcafeeWithoutHeuristic, 2, 310, 310), (.ascending, 2, (24133 / 100), (24133 / 100))]⟩, 
    ⟨[1, 1], [[16236, 16288, 16288, 16133, 16133], [-16133, -16236, -16288, -16133, -16081]], 3, 3, 465, [(.mcafee, 3, 465, 465), (.mcafeeWithoutHeuristic, 2, 362, 156), (.ascending, 3, 465, 465)]⟩, 
    ⟨[1, 1], [[13200, 13200], [-13150, -13150]], 2, 2, 100, [(.mcafee, 1, 50, 0), (.mcafeeWithoutHeuristic, 1, 50, 0), (.ascending, 1, 50, 50)]⟩, 
    ⟨[1, 1], [[13200, 13200, 13200], [-13150, -13150, -13150]], 3, 3, 150, [(.mcafee, 2, 100, 0), (.mcafeeWithoutHeuristic, 2, 100, 0), (.ascending, 2, 100, 100)]⟩, 
    ⟨[1, 1], [[13200, 13200, 13200, 12750], [-13150, -13150, -13150, -12700]], 3, 3, 600, [(.mcafee, 2, 550, 450), (.mcafeeWithoutHeuristic, 2, 550, 450), (.ascending, 3, 600, 600)]⟩, 
    ⟨[1, 1], [[13200, 13200, 13200, 12750, 12400], [-13150, -13150, -13150, -12700, -12350]], 3, 3, 1400, [(.mcafee, 2, 1350, 1250), (.mcafeeWithoutHeuristic, 2, 1350, 1250), (.ascending, 3, 1400, 1400)]⟩, 
    ⟨[1, 1], [[951, 808], [-938, -797]], 1, 1, 154, [(.mcafee, 1, 154, 154), (.mcafeeWithoutHeuristic, 0, 0, 0), (.ascending, 1, 154, 154)]⟩, 
    ⟨[1, 1], [[951, 808, 892], [-938, -797, -832]], 2, 2, 214, [(.mcafee, 2, 214, 214), (.mcafeeWithoutHeuristic, 1, 154, 94), (.ascending, 1, (273 / 2), (273 / 2))]⟩, 
    ⟨[1, 1], [[951, 808, 892, 881], [-938, -797, -832, -865]], 3, 3, 230, [(.mcafee, 3, 230, 230), (.mcafeeWithoutHeuristic, 2, 214, 182), (.ascending, 2, (18033 / 100), (18033 / 100))]⟩, 
    ⟨[1, 1], [[951, 808, 892, 881, 841], [-938, -797, -832, -865, -827]], 3, 3, 268, [(.mcafee, 3, 268, 268), (.mcafeeWithoutHeuristic, 2, 219, 121), (.ascending, 3, 268, 268)]⟩, 
    ⟨[1, 1], [[2173, 2173], [-2149, -2153]], 2, 2, 44, [(.mcafee, 1, 24, 4), (.mcafeeWithoutHeuristic, 1, 24, 4), (.ascending, 1, 22, 22)]⟩, 
    ⟨[1, 1], [[2173, 2173, 2169], [-2149, -2153, -2149]], 3, 3, 64, [(.mcafee, 2, 48, 16), (.mcafeeWithoutHeuristic, 2, 48, 16), (.ascending, 2, (4533 / 100), (4533 / 100))]⟩, 
    ⟨[1, 1], [[2173, 2173, 2169, 2157], [-2149, -2153, -2149, -2149]], 4, 4, 72, [(.mcafee, 3, 68, 56), (.mcafeeWithoutHeuristic, 3, 68, 56), (.ascending, 3, 65, 65)]⟩, 
    ⟨[1, 1], [[2173, 2173, 2169, 2157, 2137], [-2149, -2153, -2149, -2149, -2124]], 4, 4, 101, [(.mcafee, 3, 93, 69), (.mcafeeWithoutHeuristic, 3, 93, 69), (.ascending, 4, 101, 101)]⟩, 
    ⟨[1, 1], [[222000, 219000], [-219000, -219000]], 1, 2, 3000, [(.mcafee, 1, 3000, 3000), (.mcafeeWithoutHeuristic, 1, 3000, 3000), (.ascending, 1, 3000, 3000)]⟩, 
    ⟨[1, 1], [[222000, 219000, 219000], [-219000, -219000, -216000]], 1, 3, 6000, [(.mcafee, 2, 6000, 6000), (.mcafeeWithoutHeuristic, 2, 6000, 6000), (.ascending, 2, 5000, 5000)]⟩, 
    ⟨[1, 1], [[222000, 219000, 219000, 219000], [-219000, -219000, -216000, -219000]], 1, 4, 6000, [(.mcafee, 3, 6000, 6000), (.mcafeeWithoutHeuristic, 3, 6000, 6000), (.ascending, 3, 5250, 5250)]⟩, 
    ⟨[1, 1], [[222000, 219000, 219000, 219000, 219000], [-219000, -219000, -216000, -219000, -216000]], 2, 5, 9000, [(.mcafee, 4, 9000, 9000), (.mcafeeWithoutHeuristic, 4, 9000, 9000), (.ascending, 4, 7800, 7800)]⟩, 
    ⟨[1, 1], [[679, 710], [-539, -656]], 2, 2, 194, [(.mcafee, 1, 171, 148), (.mcafeeWithoutHeuristic, 1, 171, 148), (.ascending, 1, (225 / 2), (225 / 2))]⟩, 
    ⟨[1, 1], [[679, 710, 726], [-539, -656, -695]], 2, 2, 241, [(.mcafee, 2, 241, 241), (.mcafeeWithoutHeuristic, 1, 187, 133), (.ascending, 2, 241, 241)]⟩, 
    ⟨[1, 1], [[679, 710, 726, 750], [-539, -656, -695, -726]], 3, 3, 296, [(.mcafee, 3, 296, 296), (.mcafeeWithoutHeuristic, 2, 281, 251), (.ascending, 2, 216, 216)]⟩, 
    ⟨[1, 1], [[679, 710, 726, 750, 757], [-539, -656, -695, -726, -742]], 3, 3, 343, [(.mcafee, 3, 343, 343), (.mcafeeWithoutHeuristic, 2, 312, 250), (.ascending, 3, 343, 343)]⟩, 
    ⟨[1, 1], [[51835, 54336], [-49813, -50316]], 2, 2, 6042, [(.mcafee, 1, 4523, 3004), (.mcafeeWithoutHeuristic, 1, 4523, 3004), (.ascending, 1, (8543 / 2), (8543 / 2))]⟩, 
    ⟨[1, 1], [[51835, 54336, 56528], [-49813, -50316, -55168]], 2, 2, 10735, [(.mcafee, 2, 10735, 10735), (.mcafeeWithoutHeuristic, 1, 6715, 2695), (.ascending, 1, (12927 / 2), (12927 / 2))]⟩, 
    ⟨[1, 1], [[51835, 54336, 56528, 55591], [-49813, -50316, -55168, -55412]], 2, 2, 11990, [(.mcafee, 2, 11990, 11990), (.mcafeeWithoutHeuristic, 1, 6715, 1440), (.ascending, 2, 11990, 11990)]⟩, 
    ⟨[1, 1], [[51835, 54336, 56528, 55591, 53798], [-49813, -50316, -55168, -55412, -52284]], 3, 3, 14042, [(.mcafee, 2, 11990, 7886), (.mcafeeWithoutHeuristic, 2, 11990, 7886), (.ascending, 2, (1051033 / 100), (1051033 / 100))]⟩, 
    ⟨[1, 1], [[1903, 1865], [-1827, -1827]], 2, 2, 114, [(.mcafee, 1, 76, 38), (.mcafeeWithoutHeuristic, 1, 76, 38), (.ascending, 1, 76, 76)]⟩, 
    ⟨[1, 1], [[1903, 1865, 1884], [-1827, -1827, -1808]], 3, 3, 190, [(.mcafee, 2, 152, 76), (.mcafeeWithoutHeuristic, 2, 152, 76), (.ascending, 2, (14567 / 100), (14567 / 100))]⟩, 
    ⟨[1, 1], [[1903, 1865, 1884, 1808], [-1827, -1827, -1808, -1808]], 3, 3, 209, [(.mcafee, 2, 171, 95), (.mcafeeWithoutHeuristic, 2, 171, 95), (.ascending, 3, 209, 209)]⟩, 
    ⟨[1, 1], [[1903, 1865, 1884, 1808, 1884], [-1827, -1827, -1808, -1808, -1808]], 4, 4, 285, [(.mcafee, 3, 247, 133), (.mcafeeWithoutHeuristic, 3, 247, 133), (.ascending, 4, 285, 285)]⟩, 
    ⟨[1, 1], [[330, 328], [-325, -325]], 2, 2, 8, [(.mcafee, 1, 5, 2), (.mcafeeWithoutHeuristic, 1, 5, 2), (.ascending, 1, 5, 5)]⟩, 
    ⟨[1, 1], [[330, 328, 335], [-325, -325, -330]], 2, 2, 15, [(.mcafee, 2, 15, 15), (.mcafeeWithoutHeuristic, 1, 10, 5), (.ascending, 2, 15, 15)]⟩, 
    ⟨[1, 1], [[330, 328, 335, 334], [-325, -325, -330, -330]], 2, 3, 19, [(.mcafee, 2, 19, 19), (.mcafeeWithoutHeuristic, 2, 19, 19), (.ascending, 3, 19, 19)]⟩, 
    ⟨[1, 1], [[330, 328, 335, 334, 322], [-325, -325, -330, -330, -322]], 3, 3, 27, [(.mcafee, 3, 27, 27), (.mcafeeWithoutHeuristic, 2, 22, 12), (.ascending, 3, 27, 27)]⟩, 
    ⟨[1, 1], [[593, 583], [-583, -583]], 1, 2, 10, [(.mcafee, 1, 10, 10), (.mcafeeWithoutHeuristic, 1, 10, 10), (.ascending, 1, 10, 10)]⟩, 
    ⟨[1, 1], [[593, 583, 578], [-583, -583, -578]], 1, 2, 15, [(.mcafee, 1, 15, 15), (.mcafeeWithoutHeuristic, 1, 15, 15), (.ascending, 2, 15, 15)]⟩, 
    ⟨[1, 1], [[593, 583, 578, 572], [-583, -583, -578, -572]], 2, 2, 26, [(.mcafee, 2, 26, 26), (.mcafeeWithoutHeuristic, 1, 21, 16), (.ascending, 2, 26, 26)]⟩, 
    ⟨[1, 1], [[593, 583, 578, 572, 562], [-583, -583, -578, -572, -562]], 2, 3, 42, [(.mcafee, 2, 42, 42), (.mcafeeWithoutHeuristic, 2, 42, 42), (.ascending, 2, (3467 / 100), (3467 / 100))]⟩, 
    ⟨[1, 1], [[13700, 14160], [-11117, -13437]], 2, 2, 3306, [(.mcafee, 1, 3043, 2780), (.mcafeeWithoutHeuristic, 1, 3043, 2780), (.ascending, 1, 1883, 1883)]⟩, 
    ⟨[1, 1], [[13700, 14160, 13629], [-11117, -13437, -13362]], 3, 3, 3573, [(.mcafee, 2, 3381, 2997), (.mcafeeWithoutHeuristic, 2, 3381, 2997), (.ascending, 2, (258267 / 100), (258267 / 100))]⟩, 
    ⟨[1, 1], [[13700, 14160, 13629, 13733], [-11117, -13437, -13362, -13570]], 4, 4, 3736, [(.mcafee, 3, 3677, 3500), (.mcafeeWithoutHeuristic, 3, 3677, 3500), (.ascending, 3, (5957 / 2), (5957 / 2))]⟩, 
    ⟨[1, 1], [[13700, 14160, 13629, 13733, 13386], [-11117, -13437, -13362, -13570, -13383]], 4, 4, 3923, [(.mcafee, 4, 3923, 3923), (.mcafeeWithoutHeuristic, 3, 3731, 3155), (.ascending, 4, 3923, 3923)]⟩, 
    ⟨[1, 1], [[9125, 8625], [-9125, -8625]], 1, 1, 500, [(.mcafee, 1, 500, 500), (.mcafeeWithoutHeuristic, 0, 0, 0), (.ascending, 1, 500, 500)]⟩, 
    ⟨[1, 1], [[9125, 8625, 8437], [-9125, -8625, -8437]], 1, 2, 688, [(.mcafee, 1, 688, 688), (.mcafeeWithoutHeuristic, 1, 688, 688), (.ascending, 1, 594, 594)]⟩, 
    ⟨[1, 1], [[9125, 8625, 8437, 7875], [-9125, -8625, -8437, -7875]], 2, 2, 1438, [(.mcafee, 2, 1438, 1438), (.mcafeeWithoutHeuristic, 1, 1250, 1062), (.ascending, 2, 1438, 1438)]⟩, 
    ⟨[1, 1], [[9125, 8625, 8437, 7875, 7687], [-9125, -8625, -8437, -7875, -7562]], 2, 3, 2313, [(.mcafee, 2, 2313, 2313), (.mcafeeWithoutHeuristic, 2, 2313, 2313), (.ascending, 2, 1834, 1834)]⟩, 
    ⟨[1, 1], [[4605, 4674], [-4030, -4630]], 1, 1, 644, [(.mcafee, 1, 644, 644), (.mcafeeWithoutHeuristic, 0, 0, 0), (.ascending, 1, 644, 644)]⟩, 
    ⟨[1, 1], [[4605, 4674, 4498], [-4030, -4630, -4497]], 2, 2, 752, [(.mcafee, 2, 752, 752), (.mcafeeWithoutHeuristic, 1, 644, 536), (.ascending, 1, (821 / 2), (821 / 2))]⟩, 
    ⟨[1, 1], [[4605, 4674, 4498, 4536], [-4030, -4630, -4497, -4435]], 3, 3, 853, [(.mcafee, 2, 814, 736), (.mcafeeWithoutHeuristic, 2, 814, 736), (.ascending, 2, (63767 / 100), (63767 / 100))]⟩, 
    ⟨[1, 1], [[4605, 4674, 4498, 4536, 4810], [-4030, -4630, -4497, -4435, -4493]], 4, 4, 1170, [(.mcafee, 3, 1131, 1014), (.mcafeeWithoutHeuristic, 3, 1131, 1014), (.ascending, 3, (3991 / 4), (3991 / 4))]⟩, 
    ⟨[1, 1], [[14750, 14359], [-13808, -14359]], 1, 2, 942, [(.mcafee, 1, 942, 942), (.mcafeeWithoutHeuristic, 1, 942, 942), (.ascending, 1, (1333 / 2), (1333 / 2))]⟩, 
    ⟨[1, 1], [[14750, 14359, 13750], [-13808, -14359, -13562]], 2, 2, 1739, [(.mcafee, 2, 1739, 1739), (.mcafeeWithoutHeuristic, 1, 1188, 637), (.ascending, 2, 1739, 1739)]⟩, 
    ⟨[1, 1], [[14750, 14359, 13750, 13000], [-13808, -14359, -13562, -12906]], 2, 2, 2641, [(.mcafee, 2, 2641, 2641), (.mcafeeWithoutHeuristic, 1, 1844, 1047), (.ascending, 2, 2641, 2641)]⟩, 
    ⟨[1, 1], [[14750, 14359, 13750, 13000, 12093], [-13808, -14359, -13562, -12906, -11406]], 3, 3, 4985, [(.mcafee, 2, 4797, 4421), (.mcafeeWithoutHeuristic, 2, 4797, 4421), (.ascending, 2, (385967 / 100), (385967 / 100))]⟩, 
    ⟨[1, 1], [[101, 102], [-88, -97]], 2, 2, 18, [(.mcafee, 1, 14, 10), (.mcafeeWithoutHeuristic, 1, 14, 10), (.ascending, 1, (19 / 2), (19 / 2))]⟩, 
    ⟨[1, 1], [[101, 102, 103], [-88, -97, -100]], 3, 3, 21, [(.mcafee, 2, 20, 18), (.mcafeeWithoutHeuristic, 2, 20, 18), (.ascending, 2, 15, 15)]⟩, 
    ⟨[1, 1], [[101, 102, 103, 103], [-88, -97, -100, -102]], 3, 3, 23, [(.mcafee, 3, 23, 23), (.mcafeeWithoutHeuristic, 2, 21, 17), (.ascending, 3, 23, 23)]⟩, 
    ⟨[1, 1], [[101, 102, 103, 103, 100], [-88, -97, -100, -102, -99]], 4, 4, 25, [(.mcafee, 4, 25, 25), (.mcafeeWithoutHeuristic, 3, 24, 21), (.ascending, 3, 20, 20)]⟩, 
    ⟨[1, 1], [[1242, 1225], [-1156, -1214]], 2, 2, 97, [(.mcafee, 1, 86, 75), (.mcafeeWithoutHeuristic, 1, 86, 75), (.ascending, 1, 57, 57)]⟩, 
    ⟨[1, 1], [[1242, 1225, 1232], [-1156, -1214, -1213]], 3, 3, 116, [(.mcafee, 2, 105, 83), (.mcafeeWithoutHeuristic, 2, 105, 83), (.ascending, 2, (8533 / 100), (8533 / 100))]⟩, 
    ⟨[1, 1], [[1242, 1225, 1232, 1164], [-1156, -1214, -1213, -1164]], 3, 3, 166, [(.mcafee, 2, 154, 130), (.mcafeeWithoutHeuristic, 2, 154, 130), (.ascending, 3, 166, 166)]⟩, 
    ⟨[1, 1], [[1242, 1225, 1232, 1164, 1107], [-1156, -1214, -1213, -1164, -1107]], 3, 3, 272, [(.mcafee, 3, 272, 272), (.mcafeeWithoutHeuristic, 2, 211, 89), (.ascending, 3, 272, 272)]⟩, 
    ⟨[1, 1], [[8062, 8750], [-8000, -8062]], 1, 2, 750, [(.mcafee, 1, 750, 750), (.mcafeeWithoutHeuristic, 1, 750, 750), (.ascending, 1, 719, 719)]⟩, 
    ⟨[1, 1], [[8062, 8750, 9062], [-8000, -8062, -8812]], 2, 2, 1750, [(.mcafee, 2, 1750, 1750), (.mcafeeWithoutHeuristic, 1, 1062, 374), (.ascending, 1, 1031, 1031)]⟩, 
    ⟨[1, 1], [[8062, 8750, 9062, 8812], [-8000, -8062, -8812, -8750]], 2, 3, 1812, [(.mcafee, 2, 1812, 1812), (.mcafeeWithoutHeuristic, 2, 1812, 1812), (.ascending, 2, (133267 / 100), (133267 / 100))]⟩, 
    ⟨[1, 1], [[8062, 8750, 9062, 8812, 8812], [-8000, -8062, -8812, -8750, -8625]], 3, 4, 1999, [(.mcafee, 3, 1999, 1999), (.mcafeeWithoutHeuristic, 3, 1999, 1999), (.ascending, 3, (6433 / 4), (6433 / 4))]⟩, 
    ⟨[1, 1], [[14110, 13430], [-13690, -13160]], 1, 1, 950, [(.mcafee, 1, 950, 950), (.mcafeeWithoutHeuristic, 0, 0, 0), (.ascending, 1, 950, 950)]⟩, 
    ⟨[1, 1], [[14110, 13430, 13260], [-13690, -13160, -13110]], 2, 2, 1270, [(.mcafee, 1, 1000, 730), (.mcafeeWithoutHeuristic, 1, 1000, 730), (.ascending, 1, 975, 975)]⟩, 
    ⟨[1, 1], [[14110, 13430, 13260, 13140], [-13690, -13160, -13110, -13140]], 3, 3, 1390, [(.mcafee, 2, 1290, 1090), (.mcafeeWithoutHeuristic, 2, 1290, 1090), (.ascending, 2, (126667 / 100), (126667 / 100))]⟩, 
    ⟨[1, 1], [[14110, 13430, 13260, 13140, 12800], [-13690, -13160, -13110, -13140, -12800]], 3, 3, 1750, [(.mcafee, 3, 1750, 1750), (.mcafeeWithoutHeuristic, 2, 1630, 1390), (.ascending, 3, 1750, 1750)]⟩, 
    ⟨[1, 1], [[196875, 167500], [-157500, -167500]], 1, 2, 39375, [(.mcafee, 1, 39375, 39375), (.mcafeeWithoutHeuristic, 1, 39375, 39375), (.ascending, 1, 34375, 34375)]⟩, 
    ⟨[1, 1], [[196875, 167500, 200000], [-157500, -167500, -164375]], 2, 3, 75000, [(.mcafee, 2, 75000, 75000), (.mcafeeWithoutHeuristic, 2, 75000, 75000), (.ascending, 2, 70625, 70625)]⟩, 
    ⟨[1, 1], [[196875, 167500, 200000, 193125], [-157500, -167500, -164375, -188750]], 3, 3, 100625, [(.mcafee, 3, 100625, 100625), (.mcafeeWithoutHeuristic, 2, 75000, 23750), (.ascending, 3, 100625, 100625)]⟩, 
    ⟨[1, 1], [[196875, 167500, 200000, 193125, 198750], [-157500, -167500, -164375, -188750, -194375]], 4, 4, 110625, [(.mcafee, 3, 106250, 93125), (.mcafeeWithoutHeuristic, 3, 106250, 93125), (.ascending, 3, (348125 / 4), (348125 / 4))]⟩, 
    ⟨[1, 1], [[593, 578], [-531, -562]], 2, 2, 78, [(.mcafee, 1, 62, 46), (.mcafeeWithoutHeuristic, 1, 62, 46), (.ascending, 1, (93 / 2), (93 / 2))]⟩, 
    ⟨[1, 1], [[593, 578, 578], [-531, -562, -578]], 2, 3, 78, [(.mcafee, 2, 78, 78), (.mcafeeWithoutHeuristic, 2, 78, 78), (.ascending, 2, 57, 57)]⟩, 
    ⟨[1, 1], [[593, 578, 578, 570], [-531, -562, -578, -554]], 3, 3, 102, [(.mcafee, 3, 102, 102), (.mcafeeWithoutHeuristic, 2, 86, 54), (.ascending, 3, 102, 102)]⟩, 
    ⟨[1, 1], [[593, 578, 578, 570, 570], [-531, -562, -578, -554, -570]], 3, 4, 102, [(.mcafee, 3, 102, 102), (.mcafeeWithoutHeuristic, 3, 102, 102), (.ascending, 3, (345 / 4), (345 / 4))]⟩, 
    ⟨[1, 1], [[8125, 7875], [-8000, -7875]], 1, 1, 250, [(.mcafee, 1, 250, 250), (.mcafeeWithoutHeuristic, 0, 0, 0), (.ascending, 1, 250, 250)]⟩, 
    ⟨[1, 1], [[8125, 7875, 7875], [-8000, -7875, -7791]], 1, 2, 334, [(.mcafee, 1, 334, 334), (.mcafeeWithoutHeuristic, 1, 334, 334), (.ascending, 1, 292, 292)]⟩, 
    ⟨[1, 1], [[8125, 7875, 7875, 7666], [-8000, -7875, -7791, -7666]], 2, 3, 543, [(.mcafee, 2, 543, 543), (.mcafeeWithoutHeuristic, 2, 543, 543), (.ascending, 2, (44533 / 100), (44533 / 100))]⟩, 
    ⟨[1, 1], [[8125, 7875, 7875, 7666, 7666], [-8000, -7875, -7791, -7666, -7666]], 3, 3, 752, [(.mcafee, 2, 668, 500), (.mcafeeWithoutHeuristic, 2, 668, 500), (.ascending, 3, 752, 752)]⟩, 
    ⟨[1, 1], [[11750, 11750], [-11000, -11750]], 1, 2, 750, [(.mcafee, 1, 750, 750), (.mcafeeWithoutHeuristic, 1, 750, 750), (.ascending, 1, 375, 375)]⟩, 
    ⟨[1, 1], [[11750, 11750, 11875], [-11000, -11750, -11750]], 1, 3, 875, [(.mcafee, 2, 875, 875), (.mcafeeWithoutHeuristic, 2, 875, 875), (.ascending, 2, 625, 625)]⟩, 
    ⟨[1, 1], [[11750, 11750, 11875, 11750], [-11000, -11750, -11750, -11500]], 2, 4, 1125, [(.mcafee, 3, 1125, 1125), (.mcafeeWithoutHeuristic, 3, 1125, 1125), (.ascending, 3, 875, 875)]⟩, 
    ⟨[1, 1], [[11750, 11750, 11875, 11750, 11500], [-11000, -11750, -11750, -11500, -11500]], 3, 4, 1375, [(.mcafee, 3, 1375, 1375), (.mcafeeWithoutHeuristic, 3, 1375, 1375), (.ascending, 4, 1375, 1375)]⟩, 
    ⟨[1, 1], [[4875, 4750], [-4500, -4500]], 2, 2, 625, [(.mcafee, 1, 375, 125), (.mcafeeWithoutHeuristic, 1, 375, 125), (.ascending, 1, 375, 375)]⟩, 
    ⟨[1, 1], [[4875, 4750, 4546], [-4500, -4500, -4500]], 3, 3, 671, [(.mcafee, 2, 625, 533), (.mcafeeWithoutHeuristic, 2, 625, 533), (.ascending, 2, 625, 625)]⟩, 
    ⟨[1, 1], [[4875, 4750, 4546, 4750], [-4500, -4500, -4500, -4375]], 4, 4, 1046, [(.mcafee, 3, 1000, 862), (.mcafeeWithoutHeuristic, 3, 1000, 862), (.ascending, 3, (3875 / 4), (3875 / 4))]⟩, 
    ⟨[1, 1], [[4875, 4750, 4546, 4750, 4875], [-4500, -4500, -4500, -4375, -4875]], 4, 4, 1375, [(.mcafee, 4, 1375, 1375), (.mcafeeWithoutHeuristic, 3, 1125, 375), (.ascending, 3, (4375 / 4), (4375 / 4))]⟩, 
    ⟨[1, 1], [[5177, 5135], [-5083, -5135]], 1, 2, 94, [(.mcafee, 1, 94, 94), (.mcafeeWithoutHeuristic, 1, 94, 94), (.ascending, 1, 68, 68)]⟩, 
    ⟨[1, 1], [[5177, 5135, 5104], [-5083, -5135, -5093]], 2, 2, 136, [(.mcafee, 2, 136, 136), (.mcafeeWithoutHeuristic, 1, 94, 52), (.ascending, 2, 136, 136)]⟩, 
    ⟨[1, 1], [[5177, 5135, 5104, 5104], [-5083, -5135, -5093, -5072]], 3, 3, 168, [(.mcafee, 2, 157, 135), (.mcafeeWithoutHeuristic, 2, 157, 135), (.ascending, 2, (14667 / 100), (14667 / 100))]⟩, 
    ⟨[1, 1], [[5177, 5135, 5104, 5104, 5093], [-5083, -5135, -5093, -5072, -5083]], 4, 4, 189, [(.mcafee, 3, 178, 145), (.mcafeeWithoutHeuristic, 3, 178, 145), (.ascending, 3, (671 / 4), (671 / 4))]⟩, 
    ⟨[1, 1], [[5000, 6084], [-3800, -5158]], 1, 1, 2284, [(.mcafee, 1, 2284, 2284), (.mcafeeWithoutHeuristic, 0, 0, 0), (.ascending, 1, 2284, 2284)]⟩, 
    ⟨[1, 1], [[5000, 6084, 5184], [-3800, -5158, -5000]], 2, 2, 2468, [(.mcafee, 2, 2468, 2468), (.mcafeeWithoutHeuristic, 1, 2284, 2100), (.ascending, 2, 2468, 2468)]⟩, 
    ⟨[1, 1], [[5000, 6084, 5184, 4620], [-3800, -5158, -5000, -4600]], 2, 3, 2868, [(.mcafee, 2, 2868, 2868), (.mcafeeWithoutHeuristic, 2, 2868, 2868), (.ascending, 2, (233467 / 100), (233467 / 100))]⟩, 
    ⟨[1, 1], [[5000, 6084, 5184, 4620, 4000], [-3800, -5158, -5000, -4600, -4000]], 3, 3, 3868, [(.mcafee, 3, 3868, 3868), (.mcafeeWithoutHeuristic, 2, 3468, 2668), (.ascending, 3, 3868, 3868)]⟩, 
    ⟨[1, 1], [[882, 890], [0, -882]], 1, 2, 890, [(.mcafee, 1, 890, 890), (.mcafeeWithoutHeuristic, 1, 890, 890), (.ascending, 1, 449, 449)]⟩, 
    ⟨[1, 1], [[882, 890, 895], [0, -882, -882]], 2, 3, 903, [(.mcafee, 2, 903, 903), (.mcafeeWithoutHeuristic, 2, 903, 903), (.ascending, 2, 609, 609)]⟩, 
    ⟨[1, 1], [[882, 890, 895, 911], [0, -882, -882, -895]], 3, 3, 932, [(.mcafee, 3, 932, 932), (.mcafeeWithoutHeuristic, 2, 924, 908), (.ascending, 2, 630, 630)]⟩, 
    ⟨[1, 1], [[882, 890, 895, 911, 895], [0, -882, -882, -895, -895]], 3, 3, 937, [(.mcafee, 3, 937, 937), (.mcafeeWithoutHeuristic, 2, 924, 898), (.ascending, 3, 937, 937)]⟩, 
    ⟨[1, 1], [[64, 64], [-63, -64]], 1, 2, 1, [(.mcafee, 1, 1, 1), (.mcafeeWithoutHeuristic, 1, 1, 1), (.ascending, 1, (1 / 2), (1 / 2))]⟩, 
    ⟨[1, 1], [[64, 64, 63], [-63, -64, -63]], 2, 2, 2, [(.mcafee, 2, 2, 2), (.mcafeeWithoutHeuristic, 1, 1, 0), (.ascending, 2, 2, 2)]⟩, 
    ⟨[1, 1], [[64, 64, 63, 63], [-63, -64, -63, -63]], 2, 3, 2, [(.mcafee, 2, 2, 2), (.mcafeeWithoutHeuristic, 2, 2, 2), (.ascending, 2, 2, 2)]⟩, 
    ⟨[1, 1], [[64, 64, 63, 63, 62], [-63, -64, -63, -63, -62]], 2, 4, 3, [(.mcafee, 4, 3, 3), (.mcafeeWithoutHeuristic, 3, 3, 3), (.ascending, 3, (11 / 4), (11 / 4))]⟩, 
    ⟨[1, 1], [[23500, 26125], [-20000, -23125]], 2, 2, 6500, [(.mcafee, 1, 6125, 5750), (.mcafeeWithoutHeuristic, 1, 6125, 5750), (.ascending, 1, (9125 / 2), (9125 / 2))]⟩, 
    ⟨[1, 1], [[23500, 26125, 26375], [-20000, -23125, -26000]], 2, 2, 9375, [(.mcafee, 2, 9375, 9375), (.mcafeeWithoutHeuristic, 1, 6375, 3375), (.ascending, 2, 9375, 9375)]⟩, 
    ⟨[1, 1], [[23500, 26125, 26375, 26250], [-20000, -23125, -26000, -25500]], 3, 3, 10125, [(.mcafee, 2, 9500, 8250), (.mcafeeWithoutHeuristic, 2, 9500, 8250), (.ascending, 3, 10125, 10125)]⟩, 
    ⟨[1, 1], [[23500, 26125, 26375, 26250, 27375], [-20000, -23125, -26000, -25500, -25750]], 4, 4, 11750, [(.mcafee, 3, 11375, 10250), (.mcafeeWithoutHeuristic, 3, 11375, 10250), (.ascending, 4, 11750, 11750)]⟩] : List Run).all Run.agrees = true := by decide +kernel

/-- `stock/results_bak/WithGft0Integers/experiment_sbb_with_vectors_of_multi_stock(1, 16).csv`: 24 of its rows. -/
example : ([
    ⟨[1, 16], [[572246, 492131], [-32546, -32546, -32546, -32546, -32546, -32546, -32546, -32546, -32546, -32546, -32546, -32546, -32546, -32546, -32546, -32546, -30713, -30713, -30713, -30713, -30713, -30713, -30713, -30713, -30713, -30713, -30713, -30713, -30713, -30713, -30713, -30713]], 1, 1, 80838, [(.ascending, 1, 80838, 80838)]⟩, 
    ⟨[1, 16], [[572246, 492131, 503576], [-32546, -32546, -32546, -32546, -32546, -32546, -32546, -32546, -32546, -32546, -32546, -32546, -32546, -32546, -32546, -32546, -30713, -30713, -30713, -30713, -30713, -30713, -30713, -30713, -30713, -30713, -30713, -30713, -30713, -30713, -30713, -30713, -29551, -29551, -29551, -29551, -29551, -29551, -29551, -29551, -29551, -29551, -29551, -29551, -29551, -29551, -29551, -29551]], 2, 2, 111598, [(.ascending, 1, 90134, 90134)]⟩, 
    ⟨[1, 16], [[572246, 492131, 503576, 499284], [-32546, -32546, -32546, -32546, -32546, -32546, -32546, -32546, -32546, -32546, -32546, -32546, -32546, -32546, -32546, -32546, -30713, -30713, -30713, -30713, -30713, -30713, -30713, -30713, -30713, -30713, -30713, -30713, -30713, -30713, -30713, -30713, -29551, -29551, -29551, -29551, -29551, -29551, -29551, -29551, -29551, -29551, -29551, -29551, -29551, -29551, -29551, -29551, -30400, -30400, -30400, -30400, -30400, -30400, -30400, -30400, -30400, -30400, -30400, -30400, -30400, -30400, -30400, -30400]], 3, 3, 124482, [(.ascending, 2, (10873933 / 100), (10873933 / 100))]⟩, 
    ⟨[1, 16], [[572246, 492131, 503576, 499284, 479971], [-32546, -32546, -32546, -32546, -32546, -32546, -32546, -32546, -32546, -32546, -32546, -32546, -32546, -32546, -32546, -32546, -30713, -30713, -30713, -30713, -30713, -30713, -30713, -30713, -30713, -30713, -30713, -30713, -30713, -30713, -30713, -30713, -29551, -29551, -29551, -29551, -29551, -29551, -29551, -29551, -29551, -29551, -29551, -29551, -29551, -29551, -29551, -29551, -30400, -30400, -30400, -30400, -30400, -30400, -30400, -30400, -30400, -30400, -30400, -30400, -30400, -30400, -30400, -30400, -28701, -28701, -28701, -28701, -28701, -28701, -28701, -28701, -28701, -28701, -28701, -28701, -28701, -28701, -28701, -28701]], 4, 4, 157397, [(.ascending, 3, 142726, 142726)]⟩, 
    ⟨[1, 16], [[314400, 320160], [-19500, -19500, -19500, -19500, -19500, -19500, -19500, -19500, -19500, -19500, -19500, -19500, -19500, -19500, -19500, -19500, -19250, -19250, -19250, -19250, -19250, -19250, -19250, -19250, -19250, -19250, -19250, -19250, -19250, -19250, -19250, -19250]], 2, 2, 14560, [(.ascending, 1, 10160, 10160)]⟩, 
    ⟨[1, 16], [[314400, 320160, 319840], [-19500, -19500, -19500, -19500, -19500, -19500, -19500, -19500, -19500, -19500, -19500, -19500, -19500, -19500, -19500, -19500, -19250, -19250, -19250, -19250, -19250, -19250, -19250, -19250, -19250, -19250, -19250, -19250, -19250, -19250, -19250, -19250, -19889, -19889, -19889, -19889, -19889, -19889, -19889, -19889, -19889, -19889, -19889, -19889, -19889, -19889, -19889, -19889]], 2, 2, 20000, [(.ascending, 2, 20000, 20000)]⟩, 
    ⟨[1, 16], [[314400, 320160, 319840, 316959], [-19500, -19500, -19500, -19500, -19500, -19500, -19500, -19500, -19500, -19500, -19500, -19500, -19500, -19500, -19500, -19500, -19250, -19250, -19250, -19250, -19250, -19250, -19250, -19250, -19250, -19250, -19250, -19250, -19250, -19250, -19250, -19250, -19889, -19889, -19889, -19889, -19889, -19889, -19889, -19889, -19889, -19889, -19889, -19889, -19889, -19889, -19889, -19889, -19490, -19490, -19490, -19490, -19490, -19490, -19490, -19490, -19490, -19490, -19490, -19490, -19490, -19490, -19490, -19490]], 3, 3, 25119, [(.ascending, 2, (1877333 / 100), (1877333 / 100))]⟩, 
    ⟨[1, 16], [[314400, 320160, 319840, 316959, 311040], [-19500, -19500, -19500, -19500, -19500, -19500, -19500, -19500, -19500, -19500, -19500, -19500, -19500, -19500, -19500, -19500, -19250, -19250, -19250, -19250, -19250, -19250, -19250, -19250, -19250, -19250, -19250, -19250, -19250, -19250, -19250, -19250, -19889, -19889, -19889, -19889, -19889, -19889, -19889, -19889, -19889, -19889, -19889, -19889, -19889, -19889, -19889, -19889, -19490, -19490, -19490, -19490, -19490, -19490, -19490, -19490, -19490, -19490, -19490, -19490, -19490, -19490, -19490, -19490, -19280, -19280, -19280, -19280, -19280, -19280, -19280, -19280, -19280, -19280, -19280, -19280, -19280, -19280, -19280, -19280]], 4, 4, 31039, [(.ascending, 3, 26719, 26719)]⟩, 
    ⟨[1, 16], [[40000, 31666], [-2437, -2437, -2437, -2437, -2437, -2437, -2437, -2437, -2437, -2437, -2437, -2437, -2437, -2437, -2437, -2437, -1968, -1968, -1968, -1968, -1968, -1968, -1968, -1968, -1968, -1968, -1968, -1968, -1968, -1968, -1968, -1968]], 1, 1, 8512, [(.ascending, 1, 8512, 8512)]⟩, 
    ⟨[1, 16], [[40000, 31666, 28333], [-2437, -2437, -2437, -2437, -2437, -2437, -2437, -2437, -2437, -2437, -2437, -2437, -2437, -2437, -2437, -2437, -1968, -1968, -1968, -1968, -1968, -1968, -1968, -1968, -1968, -1968, -1968, -1968, -1968, -1968, -1968, -1968, -1760, -1760, -1760, -1760, -1760, -1760, -1760, -1760, -1760, -1760, -1760, -1760, -1760, -1760, -1760, -1760]], 2, 2, 12018, [(.ascending, 1, 10176, 10176)]⟩, 
    ⟨[1, 16], [[40000, 31666, 28333, 28000], [-2437, -2437, -2437, -2437, -2437, -2437, -2437, -2437, -2437, -2437, -2437, -2437, -2437, -2437, -2437, -2437, -1968, -1968, -1968, -1968, -1968, -1968, -1968, -1968, -1968, -1968, -1968, -1968, -1968, -1968, -1968, -1968, -1760, -1760, -1760, -1760, -1760, -1760, -1760, -1760, -1760, -1760, -1760, -1760, -1760, -1760, -1760, -1760, -1729, -1729, -1729, -1729, -1729, -1729, -1729, -1729, -1729, -1729, -1729, -1729, -1729, -1729, -1729, -1729]], 2, 2, 15842, [(.ascending, 2, 15842, 15842)]⟩, 
    ⟨[1, 16], [[40000, 31666, 28333, 28000, 26333], [-2437, -2437, -2437, -2437, -2437, -2437, -2437, -2437, -2437, -2437, -2437, -2437, -2437, -2437, -2437, -2437, -1968, -1968, -1968, -1968, -1968, -1968, -1968, -1968, -1968, -1968, -1968, -1968, -1968, -1968, -1968, -1968, -1760, -1760, -1760, -1760, -1760, -1760, -1760, -1760, -1760, -1760, -1760, -1760, -1760, -1760, -1760, -1760, -1729, -1729, -1729, -1729, -1729, -1729, -1729, -1729, -1729, -1729, -1729, -1729, -1729, -1729, -1729, -1729, -1635, -1635, -1635, -1635, -1635, -1635, -1635, -1635, -1635, -1635, -1635, -1635, -1635, -1635, -1635, -1635]], 3, 3, 18015, [(.ascending, 2, 17010, 17010)]⟩, 
    ⟨[1, 16], [[13399, 13629], [-837, -837, -837, -837, -837, -837, -837, -837, -837, -837, -837, -837, -837, -837, -837, -837, -835, -835, -835, -835, -835, -835, -835, -835, -835, -835, -835, -835, -835, -835, -835, -835]], 2, 2, 276, [(.ascending, 1, 253, 253)]⟩, 
    ⟨[1, 16], [[13399, 13629, 13662], [-837, -837, -837, -837, -837, -837, -837, -837, -837, -837, -837, -837, -837, -837, -837, -837, -835, -835, -835, -835, -835, -835, -835, -835, -835, -835, -835, -835, -835, -835, -835, -835, -839, -839, -839, -839, -839, -839, -839, -839, -839, -839, -839, -839, -839, -839, -839, -839]], 2, 2, 539, [(.ascending, 2, 539, 539)]⟩, 
    ⟨[1, 16], [[13399, 13629, 13662, 13366], [-837, -837, -837, -837, -837, -837, -837, -837, -837, -837, -837, -837, -837, -837, -837, -837, -835, -835, -835, -835, -835, -835, -835, -835, -835, -835, -835, -835, -835, -835, -835, -835, -839, -839, -839, -839, -839, -839, -839, -839, -839, -839, -839, -839, -839, -839, -839, -839, -831, -831, -831, -831, -831, -831, -831, -831, -831, -831, -831, -831, -831, -831, -831, -831]], 3, 3, 642, [(.ascending, 2, (59233 / 100), (59233 / 100))]⟩, 
    ⟨[1, 16], [[13399, 13629, 13662, 13366, 13267], [-837, -837, -837, -837, -837, -837, -837, -837, -837, -837, -837, -837, -837, -837, -837, -837, -835, -835, -835, -835, -835, -835, -835, -835, -835, -835, -835, -835, -835, -835, -835, -835, -839, -839, -839, -839, -839, -839, -839, -839, -839, -839, -839, -839, -839, -839, -839, -839, -831, -831, -831, -831, -831, -831, -831, -831, -831, -831, -831, -831, -831, -831, -831, -831, -814, -814, -814, -814, -814, -814, -814, -814, -814, -814, -814, -814, -814, -814, -814, -814]], 3, 3, 1010, [(.ascending, 3, 1010, 1010)]⟩, 
    ⟨[1, 16], [[74000, 74250], [-4625, -4625, -4625, -4625, -4625, -4625, -4625, -4625, -4625, -4625, -4625, -4625, -4625, -4625, -4625, -4625, -4640, -4640, -4640, -4640, -4640, -4640, -4640, -4640, -4640, -4640, -4640, -4640, -4640, -4640, -4640, -4640]], 1, 1, 250, [(.ascending, 1, 250, 250)]⟩, 
    ⟨[1, 16], [[74000, 74250, 74000], [-4625, -4625, -4625, -4625, -4625, -4625, -4625, -4625, -4625, -4625, -4625, -4625, -4625, -4625, -4625, -4625, -4640, -4640, -4640, -4640, -4640, -4640, -4640, -4640, -4640, -4640, -4640, -4640, -4640, -4640, -4640, -4640, -4625, -4625, -4625, -4625, -4625, -4625, -4625, -4625, -4625, -4625, -4625, -4625, -4625, -4625, -4625, -4625]], 1, 2, 250, [(.ascending, 1, 250, 250)]⟩, 
    ⟨[1, 16], [[74000, 74250, 74000, 74000], [-4625, -4625, -4625, -4625, -4625, -4625, -4625, -4625, -4625, -4625, -4625, -4625, -4625, -4625, -4625, -4625, -4640, -4640, -4640, -4640, -4640, -4640, -4640, -4640, -4640, -4640, -4640, -4640, -4640, -4640, -4640, -4640, -4625, -4625, -4625, -4625, -4625, -4625, -4625, -4625, -4625, -4625, -4625, -4625, -4625, -4625, -4625, -4625, -4625, -4625, -4625, -4625, -4625, -4625, -4625, -4625, -4625, -4625, -4625, -4625, -4625, -4625, -4625, -4625]], 1, 3, 250, [(.ascending, 2, 250, 250)]⟩, 
    ⟨[1, 16], [[74000, 74250, 74000, 74000, 74000], [-4625, -4625, -4625, -4625, -4625, -4625, -4625, -4625, -4625, -4625, -4625, -4625, -4625, -4625, -4625, -4625, -4640, -4640, -4640, -4640, -4640, -4640, -4640, -4640, -4640, -4640, -4640, -4640, -4640, -4640, -4640, -4640, -4625, -4625, -4625, -4625, -4625, -4625, -4625, -4625, -4625, -4625, -4625, -4625, -4625, -4625, -4625, -4625, -4625, -4625, -4625, -4625, -4625, -4625, -4625, -4625, -4625, -4625, -4625, -4625, -4625, -4625, -4625, -4625, -4625, -4625, -4625, -4625, -4625, -4625, -4625, -4625, -4625, -4625, -4625, -4625, -4625, -4625, -4625, -4625]], 1, 4, 250, [(.ascending, 3, 250, 250)]⟩, 
    ⟨[1, 16], [[259790, 260620], [-16133, -16133, -16133, -16133, -16133, -16133, -16133, -16133, -16133, -16133, -16133, -16133, -16133, -16133, -16133, -16133, -16236, -16236, -16236, -16236, -16236, -16236, -16236, -16236, -16236, -16236, -16236, -16236, -16236, -16236, -16236, -16236]], 2, 2, 2506, [(.ascending, 1, 1668, 1668)]⟩, 
    ⟨[1, 16], [[259790, 260620, 260620], [-16133, -16133, -16133, -16133, -16133, -16133, -16133, -16133, -16133, -16133, -16133, -16133, -16133, -16133, -16133, -16133, -16236, -16236, -16236, -16236, -16236, -16236, -16236, -16236, -16236, -16236, -16236, -16236, -16236, -16236, -16236, -16236, -16288, -16288, -16288, -16288, -16288, -16288, -16288, -16288, -16288, -16288, -16288, -16288, -16288, -16288, -16288, -16288]], 2, 2, 3336, [(.ascending, 2, 3336, 3336)]⟩, 
    ⟨[1, 16], [[259790, 260620, 260620, 258130], [-16133, -16133, -16133, -16133, -16133, -16133, -16133, -16133, -16133, -16133, -16133, -16133, -16133, -16133, -16133, -16133, -16236, -16236, -16236, -16236, -16236, -16236, -16236, -16236, -16236, -16236, -16236, -16236, -16236, -16236, -16236, -16236, -16288, -16288, -16288, -16288, -16288, -16288, -16288, -16288, -16288, -16288, -16288, -16288, -16288, -16288, -16288, -16288, -16133, -16133, -16133, -16133, -16133, -16133, -16133, -16133, -16133, -16133, -16133, -16133, -16133, -16133, -16133, -16133]], 3, 3, 4998, [(.ascending, 2, (388533 / 100), (388533 / 100))]⟩, 
    ⟨[1, 16], [[259790, 260620, 260620, 258130, 258130], [-16133, -16133, -16133, -16133, -16133, -16133, -16133, -16133, -16133, -16133, -16133, -16133, -16133, -16133, -16133, -16133, -16236, -16236, -16236, -16236, -16236, -16236, -16236, -16236, -16236, -16236, -16236, -16236, -16236, -16236, -16236, -16236, -16288, -16288, -16288, -16288, -16288, -16288, -16288, -16288, -16288, -16288, -16288, -16288, -16288, -16288, -16288, -16288, -16133, -16133, -16133, -16133, -16133, -16133, -16133, -16133, -16133, -16133, -16133, -16133, -16133, -16133, -16133, -16133, -16081, -16081, -16081, -16081, -16081, -16081, -16081, -16081, -16081, -16081, -16081, -16081, -16081, -16081, -16081, -16081]], 3, 3, 7478, [(.ascending, 3, 7478, 7478)]⟩] : List Run).all Run.agrees = true := by decide +kernel

/-- `stock/results_bak/WithGft0Integers/experiment_sbb_with_vectors_of_multi_stock(1, 2).csv`: 24 of its rows. -/
example : ([
    ⟨[1, 2], [[67238, 59638], [-32546, -30713, -29551, -30400]], 1, 1, 7287, [(.ascending, 1, 7287, 7287)]⟩, 
    ⟨[1, 2], [[67238, 59638, 62947], [-32546, -30713, -29551, -30400, -28701, -29238]], 2, 2, 12295, [(.ascending, 2, 12295, 12295)]⟩, 
    ⟨[1, 2], [[67238, 59638, 62947, 59817], [-32546, -30713, -29551, -30400, -28701, -29238, -29327, -30042]], 2, 2, 13368, [(.ascending, 2, 13368, 13368)]⟩, 
    ⟨[1, 2], [[67238, 59638, 62947, 59817, 59370], [-32546, -30713, -29551, -30400, -28701, -29238, -29327, -30042, -30177, -31294]], 2, 2, 13368, [(.ascending, 2, 13368, 13368)]⟩, 
    ⟨[1, 2], [[39000, 40000], [-19500, -19250, -19889, -19490]], 1, 1, 1260, [(.ascending, 1, (117333 / 100), (117333 / 100))]⟩, 
    ⟨[1, 2], [[39000, 40000, 39500], [-19500, -19250, -19889, -19490, -19280, -19070]], 2, 2, 2410, [(.ascending, 2, 2228, 2228)]⟩, 
    ⟨[1, 2], [[39000, 40000, 39500, 39159], [-19500, -19250, -19889, -19490, -19280, -19070, -19059, -19049]], 3, 3, 3461, [(.ascending, 3, (320357 / 100), (320357 / 100))]⟩, 
    ⟨[1, 2], [[39000, 40000, 39500, 39159, 38690], [-19500, -19250, -19889, -19490, -19280, -19070, -19059, -19049, -19110, -19040]], 4, 4, 4311, [(.ascending, 4, 4311, 4311)]⟩, 
    ⟨[1, 2], [[4458, 3708], [-2437, -1968, -1760, -1729]], 1, 1, 969, [(.ascending, 1, 969, 969)]⟩, 
    ⟨[1, 2], [[4458, 3708, 3479], [-2437, -1968, -1760, -1729, -1635, -1437]], 2, 2, 1605, [(.ascending, 1, (2355 / 2), (2355 / 2))]⟩, 
    ⟨[1, 2], [[4458, 3708, 3479, 3385], [-2437, -1968, -1760, -1729, -1635, -1437, -1406, -1510]], 2, 2, 2178, [(.ascending, 2, (9962 / 5), (9962 / 5))]⟩, 
    ⟨[1, 2], [[4458, 3708, 3479, 3385, 3072], [-2437, -1968, -1760, -1729, -1635, -1437, -1406, -1510, -1625, -1541]], 3, 3, 2491, [(.ascending, 3, 2491, 2491)]⟩, 
    ⟨[1, 2], [[1660, 1691], [-837, -835, -839, -831]], 1, 1, 25, [(.ascending, 1, 25, 25)]⟩, 
    ⟨[1, 2], [[1660, 1691, 1685], [-837, -835, -839, -831, -814, -816]], 2, 2, 80, [(.ascending, 2, 80, 80)]⟩, 
    ⟨[1, 2], [[1660, 1691, 1685, 1650], [-837, -835, -839, -831, -814, -816, -818, -820]], 2, 2, 108, [(.ascending, 2, 108, 108)]⟩, 
    ⟨[1, 2], [[1660, 1691, 1685, 1650, 1646], [-837, -835, -839, -831, -814, -816, -818, -820, -835, -845]], 2, 2, 108, [(.ascending, 2, 108, 108)]⟩, 
    ⟨[1, 2], [[9250, 9281], [-4625, -4640, -4625, -4625]], 1, 1, 31, [(.ascending, 1, 31, 31)]⟩, 
    ⟨[1, 2], [[9250, 9281, 9250], [-4625, -4640, -4625, -4625, -4625, -4625]], 1, 2, 31, [(.ascending, 2, 31, 31)]⟩, 
    ⟨[1, 2], [[9250, 9281, 9250, 9250], [-4625, -4640, -4625, -4625, -4625, -4625, -4656, -4671]], 1, 2, 31, [(.ascending, 2, 31, 31)]⟩, 
    ⟨[1, 2], [[9250, 9281, 9250, 9250, 9250], [-4625, -4640, -4625, -4625, -4625, -4625, -4656, -4671, -4734, -4875]], 1, 2, 31, [(.ascending, 2, 31, 31)]⟩, 
    ⟨[1, 2], [[32473, 32577], [-16133, -16236, -16288, -16133]], 1, 1, 311, [(.ascending, 1, (24233 / 100), (24233 / 100))]⟩, 
    ⟨[1, 2], [[32473, 32577, 32473], [-16133, -16236, -16288, -16133, -16081, -16133]], 2, 2, 570, [(.ascending, 2, (2386 / 5), (2386 / 5))]⟩, 
    ⟨[1, 2], [[32473, 32577, 32473, 32214], [-16133, -16236, -16288, -16133, -16081, -16133, -16288, -16340]], 2, 2, 570, [(.ascending, 2, (2386 / 5), (2386 / 5))]⟩, 
    ⟨[1, 2], [[32473, 32577, 32473, 32214, 32266], [-16133, -16236, -16288, -16133, -16081, -16133, -16288, -16340, -16340, -16444]], 2, 2, 570, [(.ascending, 2, (2386 / 5), (2386 / 5))]⟩] : List Run).all Run.agrees = true := by decide +kernel

/-- `stock/results_bak/WithGft0Integers/experiment_sbb_with_vectors_of_multi_stock(1, 2, 2).csv`: 24 of its rows. -/
example : ([
    ⟨[1, 2, 2], [[143061, 123032], [-32546, -32546, -29551, -29551], [-30713, -30713, -30400, -30400]], 1, 1, 23159, [(.ascending, 1, 23159, 23159)]⟩, 
    ⟨[1, 2, 2], [[143061, 123032, 125894], [-32546, -32546, -29551, -29551, -28701, -28701], [-30713, -30713, -30400, -30400, -29238, -29238]], 2, 2, 33175, [(.ascending, 1, 25171, 25171)]⟩, 
    ⟨[1, 2, 2], [[78600, 80040], [-19500, -19500, -19889, -19889], [-19250, -19250, -19490, -19490]], 1, 1, 2540, [(.ascending, 1, 2540, 2540)]⟩, 
    ⟨[1, 2, 2], [[78600, 80040, 79960], [-19500, -19500, -19889, -19889, -19280, -19280], [-19250, -19250, -19490, -19490, -19070, -19070]], 2, 2, 5800, [(.ascending, 2, 5800, 5800)]⟩, 
    ⟨[1, 2, 2], [[10000, 7916], [-2437, -2437, -1760, -1760], [-1968, -1968, -1729, -1729]], 1, 1, 3022, [(.ascending, 1, 3022, 3022)]⟩, 
    ⟨[1, 2, 2], [[10000, 7916, 7083], [-2437, -2437, -1760, -1760, -1635, -1635], [-1968, -1968, -1729, -1729, -1437, -1437]], 2, 2, 4794, [(.ascending, 1, 3439, 3439)]⟩, 
    ⟨[1, 2, 2], [[3349, 3407], [-837, -837, -839, -839], [-835, -835, -831, -831]], 2, 2, 72, [(.ascending, 1, (6567 / 100), (6567 / 100))]⟩, 
    ⟨[1, 2, 2], [[3349, 3407, 3415], [-837, -837, -839, -839, -814, -814], [-835, -835, -831, -831, -816, -816]], 3, 3, 227, [(.ascending, 2, (19987 / 100), (19987 / 100))]⟩, 
    ⟨[1, 2, 2], [[18500, 18562], [-4625, -4625, -4625, -4625], [-4640, -4640, -4625, -4625]], 1, 1, 62, [(.ascending, 1, 62, 62)]⟩, 
    ⟨[1, 2, 2], [[18500, 18562, 18500], [-4625, -4625, -4625, -4625, -4625, -4625], [-4640, -4640, -4625, -4625, -4625, -4625]], 1, 2, 62, [(.ascending, 1, 62, 62)]⟩, 
    ⟨[1, 2, 2], [[64947, 65155], [-16133, -16133, -16288, -16288], [-16236, -16236, -16133, -16133]], 1, 1, 623, [(.ascending, 1, 623, 623)]⟩, 
    ⟨[1, 2, 2], [[64947, 65155, 65155], [-16133, -16133, -16288, -16288, -16081, -16081], [-16236, -16236, -16133, -16133, -16133, -16133]], 2, 2, 1350, [(.ascending, 2, 1350, 1350)]⟩, 
    ⟨[1, 2, 2], [[52800, 52800], [-13150, -13150, -13150, -13150], [-13150, -13150, -12700, -12700]], 2, 2, 1300, [(.ascending, 1, 650, 650)]⟩, 
    ⟨[1, 2, 2], [[52800, 52800, 52800], [-13150, -13150, -13150, -13150, -12350, -12350], [-13150, -13150, -12700, -12700, -12300, -12300]], 3, 3, 4800, [(.ascending, 2, (341333 / 100), (341333 / 100))]⟩, 
    ⟨[1, 2, 2], [[3805, 3235], [-938, -938, -832, -832], [-797, -797, -865, -865]], 1, 1, 547, [(.ascending, 1, 547, 547)]⟩, 
    ⟨[1, 2, 2], [[3805, 3235, 3568], [-938, -938, -832, -832, -827, -827], [-797, -797, -865, -865, -747, -747]], 2, 2, 967, [(.ascending, 1, 602, 602)]⟩, 
    ⟨[1, 2, 2], [[8693, 8693], [-2149, -2149, -2149, -2149], [-2153, -2153, -2149, -2149]], 2, 2, 186, [(.ascending, 1, 93, 93)]⟩, 
    ⟨[1, 2, 2], [[8693, 8693, 8677], [-2149, -2149, -2149, -2149, -2124, -2124], [-2153, -2153, -2149, -2149, -2112, -2112]], 3, 3, 391, [(.ascending, 2, 278, 278)]⟩, 
    ⟨[1, 2, 2], [[888000, 876000], [-219000, -219000, -216000, -216000], [-219000, -219000, -219000, -219000]], 1, 2, 18000, [(.ascending, 1, 16000, 16000)]⟩, 
    ⟨[1, 2, 2], [[888000, 876000, 876000], [-219000, -219000, -216000, -216000, -216000, -216000], [-219000, -219000, -219000, -219000, -222000, -222000]], 2, 2, 24000, [(.ascending, 1, 18000, 18000)]⟩, 
    ⟨[1, 2, 2], [[2718, 2843], [-539, -539, -695, -695], [-656, -656, -726, -726]], 1, 1, 453, [(.ascending, 1, 453, 453)]⟩, 
    ⟨[1, 2, 2], [[2718, 2843, 2906], [-539, -539, -695, -695, -742, -742], [-656, -656, -726, -726, -710, -710]], 2, 2, 549, [(.ascending, 1, 306, 306)]⟩, 
    ⟨[1, 2, 2], [[207342, 217345], [-49813, -49813, -55168, -55168], [-50316, -50316, -55412, -55412]], 1, 1, 17087, [(.ascending, 0, 0, 0)]⟩, 
    ⟨[1, 2, 2], [[207342, 217345, 226112], [-49813, -49813, -55168, -55168, -52284, -52284], [-50316, -50316, -55412, -55412, -52279, -52279]], 2, 2, 34073, [(.ascending, 1, 21420, 21420)]⟩] : List Run).all Run.agrees = true := by decide +kernel

/-- `stock/results_bak/WithGft0Integers/experiment_sbb_with_vectors_of_multi_stock(1, 2, 3).csv`: 24 of its rows. -/
example : ([
    ⟨[1, 2, 3], [[178826, 153791], [-32546, -32546, -29551, -29551], [-30713, -30713, -30713, -30400, -30400, -30400]], 1, 1, 28524, [(.ascending, 1, 28524, 28524)]⟩, 
    ⟨[1, 2, 3], [[178826, 153791, 157367], [-32546, -32546, -29551, -29551, -28701, -28701], [-30713, -30713, -30713, -30400, -30400, -30400, -29238, -29238, -29238]], 2, 2, 40775, [(.ascending, 2, 40775, 40775)]⟩, 
    ⟨[1, 2, 3], [[98250, 100050], [-19500, -19500, -19889, -19889], [-19250, -19250, -19250, -19490, -19490, -19490]], 2, 2, 3302, [(.ascending, 1, (268067 / 100), (268067 / 100))]⟩, 
    ⟨[1, 2, 3], [[98250, 100050, 99949], [-19500, -19500, -19889, -19889, -19280, -19280], [-19250, -19250, -19250, -19490, -19490, -19490, -19070, -19070, -19070]], 3, 3, 7481, [(.ascending, 2, (32099 / 5), (32099 / 5))]⟩, 
    ⟨[1, 2, 3], [[12500, 9895], [-2437, -2437, -1760, -1760], [-1968, -1968, -1968, -1729, -1729, -1729]], 1, 1, 3793, [(.ascending, 1, 3793, 3793)]⟩, 
    ⟨[1, 2, 3], [[12500, 9895, 8854], [-2437, -2437, -1760, -1760, -1635, -1635], [-1968, -1968, -1968, -1729, -1729, -1729, -1437, -1437, -1437]], 2, 2, 6107, [(.ascending, 1, 4356, 4356)]⟩, 
    ⟨[1, 2, 3], [[4187, 4259], [-837, -837, -839, -839], [-835, -835, -835, -831, -831, -831]], 2, 2, 96, [(.ascending, 1, (8467 / 100), (8467 / 100))]⟩, 
    ⟨[1, 2, 3], [[4187, 4259, 4269], [-837, -837, -839, -839, -814, -814], [-835, -835, -835, -831, -831, -831, -816, -816, -816]], 3, 3, 289, [(.ascending, 2, (1256 / 5), (1256 / 5))]⟩, 
    ⟨[1, 2, 3], [[23125, 23203], [-4625, -4625, -4625, -4625], [-4640, -4640, -4640, -4625, -4625, -4625]], 1, 1, 78, [(.ascending, 1, 78, 78)]⟩, 
    ⟨[1, 2, 3], [[23125, 23203, 23125], [-4625, -4625, -4625, -4625, -4625, -4625], [-4640, -4640, -4640, -4625, -4625, -4625, -4625, -4625, -4625]], 1, 2, 78, [(.ascending, 1, 78, 78)]⟩, 
    ⟨[1, 2, 3], [[81184, 81443], [-16133, -16133, -16288, -16288], [-16236, -16236, -16236, -16133, -16133, -16133]], 1, 1, 778, [(.ascending, 1, 778, 778)]⟩, 
    ⟨[1, 2, 3], [[81184, 81443, 81443], [-16133, -16133, -16288, -16288, -16081, -16081], [-16236, -16236, -16236, -16133, -16133, -16133, -16133, -16133, -16133]], 2, 2, 1660, [(.ascending, 2, 1660, 1660)]⟩, 
    ⟨[1, 2, 3], [[66000, 66000], [-13150, -13150, -13150, -13150], [-13150, -13150, -13150, -12700, -12700, -12700]], 2, 2, 1850, [(.ascending, 1, 925, 925)]⟩, 
    ⟨[1, 2, 3], [[66000, 66000, 66000], [-13150, -13150, -13150, -13150, -12350, -12350], [-13150, -13150, -13150, -12700, -12700, -12700, -12300, -12300, -12300]], 3, 3, 6250, [(.ascending, 2, 4380, 4380)]⟩, 
    ⟨[1, 2, 3], [[4756, 4044], [-938, -938, -832, -832], [-797, -797, -797, -865, -865, -865]], 1, 1, 701, [(.ascending, 1, 701, 701)]⟩, 
    ⟨[1, 2, 3], [[4756, 4044, 4460], [-938, -938, -832, -832, -827, -827], [-797, -797, -797, -865, -865, -865, -747, -747, -747]], 2, 2, 1266, [(.ascending, 1, 781, 781)]⟩, 
    ⟨[1, 2, 3], [[10867, 10867], [-2149, -2149, -2149, -2149], [-2153, -2153, -2153, -2149, -2149, -2149]], 2, 2, 232, [(.ascending, 1, 116, 116)]⟩, 
    ⟨[1, 2, 3], [[10867, 10867, 10847], [-2149, -2149, -2149, -2149, -2124, -2124], [-2153, -2153, -2153, -2149, -2149, -2149, -2112, -2112, -2112]], 3, 3, 495, [(.ascending, 2, 350, 350)]⟩, 
    ⟨[1, 2, 3], [[1110000, 1095000], [-219000, -219000, -216000, -216000], [-219000, -219000, -219000, -219000, -219000, -219000]], 1, 2, 21000, [(.ascending, 1, 19000, 19000)]⟩, 
    ⟨[1, 2, 3], [[1110000, 1095000, 1095000], [-219000, -219000, -216000, -216000, -216000, -216000], [-219000, -219000, -219000, -219000, -219000, -219000, -222000, -222000, -222000]], 2, 2, 27000, [(.ascending, 1, 21000, 21000)]⟩, 
    ⟨[1, 2, 3], [[3398, 3554], [-539, -539, -695, -695], [-656, -656, -656, -726, -726, -726]], 1, 1, 508, [(.ascending, 0, 0, 0)]⟩, 
    ⟨[1, 2, 3], [[3398, 3554, 3632], [-539, -539, -695, -695, -742, -742], [-656, -656, -656, -726, -726, -726, -710, -710, -710]], 2, 2, 620, [(.ascending, 1, 401, 401)]⟩, 
    ⟨[1, 2, 3], [[259178, 271681], [-49813, -49813, -55168, -55168], [-50316, -50316, -50316, -55412, -55412, -55412]], 1, 1, 21107, [(.ascending, 0, 0, 0)]⟩, 
    ⟨[1, 2, 3], [[259178, 271681, 282640], [-49813, -49813, -55168, -55168, -52284, -52284], [-50316, -50316, -50316, -55412, -55412, -55412, -52279, -52279, -52279]], 2, 2, 42342, [(.ascending, 1, (53301 / 2), (53301 / 2))]⟩] : List Run).all Run.agrees = true := by decide +kernel

/-- `stock/results_bak/WithGft0Integers/experiment_sbb_with_vectors_of_multi_stock(1, 2, 3, 4).csv`: 12 of its rows. -/
example : ([
    ⟨[1, 2, 3, 4], [[321888, 276824], [-32546, -32546, -30400, -30400], [-30713, -30713, -30713, -28701, -28701, -28701], [-29551, -29551, -29551, -29551, -29238, -29238, -29238, -29238]], 2, 2, 59422, [(.ascending, 1, (5356193 / 100), (5356193 / 100))]⟩, 
    ⟨[1, 2, 3, 4], [[321888, 276824, 283261], [-32546, -32546, -30400, -30400, -29327, -29327], [-30713, -30713, -30713, -28701, -28701, -28701, -30042, -30042, -30042], [-29551, -29551, -29551, -29551, -29238, -29238, -29238, -29238, -30177, -30177, -30177, -30177]], 2, 2, 74310, [(.ascending, 2, 74310, 74310)]⟩, 
    ⟨[1, 2, 3, 4], [[176850, 180090], [-19500, -19500, -19490, -19490], [-19250, -19250, -19250, -19280, -19280, -19280], [-19889, -19889, -19889, -19889, -19070, -19070, -19070, -19070]], 2, 2, 7534, [(.ascending, 1, (539933 / 100), (539933 / 100))]⟩, 
    ⟨[1, 2, 3, 4], [[176850, 180090, 179910], [-19500, -19500, -19490, -19490, -19059, -19059], [-19250, -19250, -19250, -19280, -19280, -19280, -19049, -19049, -19049], [-19889, -19889, -19889, -19889, -19070, -19070, -19070, -19070, -19110, -19110, -19110, -19110]], 3, 3, 15739, [(.ascending, 2, (638909 / 50), (638909 / 50))]⟩, 
    ⟨[1, 2, 3, 4], [[22500, 17812], [-2437, -2437, -1729, -1729], [-1968, -1968, -1968, -1635, -1635, -1635], [-1760, -1760, -1760, -1760, -1437, -1437, -1437, -1437]], 1, 1, 8389, [(.ascending, 1, 8389, 8389)]⟩, 
    ⟨[1, 2, 3, 4], [[22500, 17812, 15937], [-2437, -2437, -1729, -1729, -1406, -1406], [-1968, -1968, -1968, -1635, -1635, -1635, -1510, -1510, -1510], [-1760, -1760, -1760, -1760, -1437, -1437, -1437, -1437, -1625, -1625, -1625, -1625]], 2, 2, 12359, [(.ascending, 1, (17047 / 2), (17047 / 2))]⟩, 
    ⟨[1, 2, 3, 4], [[7537, 7666], [-837, -837, -831, -831], [-835, -835, -835, -814, -814, -814], [-839, -839, -839, -839, -816, -816, -816, -816]], 2, 2, 300, [(.ascending, 1, (1114 / 5), (1114 / 5))]⟩, 
    ⟨[1, 2, 3, 4], [[7537, 7666, 7685], [-837, -837, -831, -831, -818, -818], [-835, -835, -835, -814, -814, -814, -820, -820, -820], [-839, -839, -839, -839, -816, -816, -816, -816, -835, -835, -835, -835]], 3, 3, 549, [(.ascending, 2, 474, 474)]⟩, 
    ⟨[1, 2, 3, 4], [[41625, 41765], [-4625, -4625, -4625, -4625], [-4640, -4640, -4640, -4625, -4625, -4625], [-4625, -4625, -4625, -4625, -4625, -4625, -4625, -4625]], 1, 1, 140, [(.ascending, 1, 140, 140)]⟩, 
    ⟨[1, 2, 3, 4], [[41625, 41765, 41625], [-4625, -4625, -4625, -4625, -4656, -4656], [-4640, -4640, -4640, -4625, -4625, -4625, -4671, -4671, -4671], [-4625, -4625, -4625, -4625, -4625, -4625, -4625, -4625, -4734, -4734, -4734, -4734]], 1, 1, 140, [(.ascending, 1, 140, 140)]⟩, 
    ⟨[1, 2, 3, 4], [[146131, 146598], [-16133, -16133, -16133, -16133], [-16236, -16236, -16236, -16081, -16081, -16081], [-16288, -16288, -16288, -16288, -16133, -16133, -16133, -16133]], 2, 2, 1562, [(.ascending, 1, 1061, 1061)]⟩, 
    ⟨[1, 2, 3, 4], [[146131, 146598, 146598], [-16133, -16133, -16133, -16133, -16288, -16288], [-16236, -16236, -16236, -16081, -16081, -16081, -16340, -16340, -16340], [-16288, -16288, -16288, -16288, -16133, -16133, -16133, -16133, -16340, -16340, -16340, -16340]], 2, 2, 2029, [(.ascending, 1, (2029 / 2), (2029 / 2))]⟩] : List Run).all Run.agrees = true := by decide +kernel

/-- `stock/results_bak/WithGft0Integers/experiment_sbb_with_vectors_of_multi_stock(1, 4).csv`: 24 of its rows. -/
example : ([
    ⟨[1, 4], [[143061, 123032], [-32546, -32546, -32546, -32546, -30713, -30713, -30713, -30713]], 1, 1, 20209, [(.ascending, 1, 20209, 20209)]⟩, 
    ⟨[1, 4], [[143061, 123032, 125894], [-32546, -32546, -32546, -32546, -30713, -30713, -30713, -30713, -29551, -29551, -29551, -29551]], 2, 2, 27899, [(.ascending, 1, 22533, 22533)]⟩, 
    ⟨[1, 4], [[143061, 123032, 125894, 124821], [-32546, -32546, -32546, -32546, -30713, -30713, -30713, -30713, -29551, -29551, -29551, -29551, -30400, -30400, -30400, -30400]], 3, 3, 31120, [(.ascending, 2, (2718433 / 100), (2718433 / 100))]⟩, 
    ⟨[1, 4], [[143061, 123032, 125894, 124821, 119992], [-32546, -32546, -32546, -32546, -30713, -30713, -30713, -30713, -29551, -29551, -29551, -29551, -30400, -30400, -30400, -30400, -28701, -28701, -28701, -28701]], 4, 4, 39348, [(.ascending, 3, 35681, 35681)]⟩, 
    ⟨[1, 4], [[78600, 80040], [-19500, -19500, -19500, -19500, -19250, -19250, -19250, -19250]], 2, 2, 3640, [(.ascending, 1, 2540, 2540)]⟩, 
    ⟨[1, 4], [[78600, 80040, 79960], [-19500, -19500, -19500, -19500, -19250, -19250, -19250, -19250, -19889, -19889, -19889, -19889]], 2, 2, 5000, [(.ascending, 2, 5000, 5000)]⟩, 
    ⟨[1, 4], [[78600, 80040, 79960, 79239], [-19500, -19500, -19500, -19500, -19250, -19250, -19250, -19250, -19889, -19889, -19889, -19889, -19490, -19490, -19490, -19490]], 3, 3, 6279, [(.ascending, 2, (469333 / 100), (469333 / 100))]⟩, 
    ⟨[1, 4], [[78600, 80040, 79960, 79239, 77760], [-19500, -19500, -19500, -19500, -19250, -19250, -19250, -19250, -19889, -19889, -19889, -19889, -19490, -19490, -19490, -19490, -19280, -19280, -19280, -19280]], 4, 4, 7759, [(.ascending, 3, 6679, 6679)]⟩, 
    ⟨[1, 4], [[10000, 7916], [-2437, -2437, -2437, -2437, -1968, -1968, -1968, -1968]], 1, 1, 2128, [(.ascending, 1, 2128, 2128)]⟩, 
    ⟨[1, 4], [[10000, 7916, 7083], [-2437, -2437, -2437, -2437, -1968, -1968, -1968, -1968, -1760, -1760, -1760, -1760]], 2, 2, 3004, [(.ascending, 1, 2544, 2544)]⟩, 
    ⟨[1, 4], [[10000, 7916, 7083, 7000], [-2437, -2437, -2437, -2437, -1968, -1968, -1968, -1968, -1760, -1760, -1760, -1760, -1729, -1729, -1729, -1729]], 2, 2, 3960, [(.ascending, 2, 3960, 3960)]⟩, 
    ⟨[1, 4], [[10000, 7916, 7083, 7000, 6583], [-2437, -2437, -2437, -2437, -1968, -1968, -1968, -1968, -1760, -1760, -1760, -1760, -1729, -1729, -1729, -1729, -1635, -1635, -1635, -1635]], 3, 3, 4503, [(.ascending, 2, 4252, 4252)]⟩, 
    ⟨[1, 4], [[3349, 3407], [-837, -837, -837, -837, -835, -835, -835, -835]], 2, 2, 68, [(.ascending, 1, 63, 63)]⟩, 
    ⟨[1, 4], [[3349, 3407, 3415], [-837, -837, -837, -837, -835, -835, -835, -835, -839, -839, -839, -839]], 2, 2, 134, [(.ascending, 2, 134, 134)]⟩, 
    ⟨[1, 4], [[3349, 3407, 3415, 3341], [-837, -837, -837, -837, -835, -835, -835, -835, -839, -839, -839, -839, -831, -831, -831, -831]], 3, 3, 159, [(.ascending, 2, (14733 / 100), (14733 / 100))]⟩, 
    ⟨[1, 4], [[3349, 3407, 3415, 3341, 3316], [-837, -837, -837, -837, -835, -835, -835, -835, -839, -839, -839, -839, -831, -831, -831, -831, -814, -814, -814, -814]], 3, 3, 251, [(.ascending, 3, 251, 251)]⟩, 
    ⟨[1, 4], [[18500, 18562], [-4625, -4625, -4625, -4625, -4640, -4640, -4640, -4640]], 1, 1, 62, [(.ascending, 1, 62, 62)]⟩, 
    ⟨[1, 4], [[18500, 18562, 18500], [-4625, -4625, -4625, -4625, -4640, -4640, -4640, -4640, -4625, -4625, -4625, -4625]], 1, 2, 62, [(.ascending, 1, 62, 62)]⟩, 
    ⟨[1, 4], [[18500, 18562, 18500, 18500], [-4625, -4625, -4625, -4625, -4640, -4640, -4640, -4640, -4625, -4625, -4625, -4625, -4625, -4625, -4625, -4625]], 1, 3, 62, [(.ascending, 2, 62, 62)]⟩, 
    ⟨[1, 4], [[18500, 18562, 18500, 18500, 18500], [-4625, -4625, -4625, -4625, -4640, -4640, -4640, -4640, -4625, -4625, -4625, -4625, -4625, -4625, -4625, -4625, -4625, -4625, -4625, -4625]], 1, 4, 62, [(.ascending, 3, 62, 62)]⟩, 
    ⟨[1, 4], [[64947, 65155], [-16133, -16133, -16133, -16133, -16236, -16236, -16236, -16236]], 2, 2, 626, [(.ascending, 1, 417, 417)]⟩, 
    ⟨[1, 4], [[64947, 65155, 65155], [-16133, -16133, -16133, -16133, -16236, -16236, -16236, -16236, -16288, -16288, -16288, -16288]], 2, 2, 834, [(.ascending, 2, 834, 834)]⟩, 
    ⟨[1, 4], [[64947, 65155, 65155, 64532], [-16133, -16133, -16133, -16133, -16236, -16236, -16236, -16236, -16288, -16288, -16288, -16288, -16133, -16133, -16133, -16133]], 3, 3, 1249, [(.ascending, 2, (97133 / 100), (97133 / 100))]⟩, 
    ⟨[1, 4], [[64947, 65155, 65155, 64532, 64532], [-16133, -16133, -16133, -16133, -16236, -16236, -16236, -16236, -16288, -16288, -16288, -16288, -16133, -16133, -16133, -16133, -16081, -16081, -16081, -16081]], 3, 3, 1869, [(.ascending, 3, 1869, 1869)]⟩] : List Run).all Run.agrees = true := by decide +kernel

/-- `stock/results_bak/WithGft0Integers/experiment_sbb_with_vectors_of_multi_stock(1, 8).csv`: 24 of its rows. -/
example : ([
    ⟨[1, 8], [[286123, 246065], [-32546, -32546, -32546, -32546, -32546, -32546, -32546, -32546, -30713, -30713, -30713, -30713, -30713, -30713, -30713, -30713]], 1, 1, 40419, [(.ascending, 1, 40419, 40419)]⟩, 
    ⟨[1, 8], [[286123, 246065, 251788], [-32546, -32546, -32546, -32546, -32546, -32546, -32546, -32546, -30713, -30713, -30713, -30713, -30713, -30713, -30713, -30713, -29551, -29551, -29551, -29551, -29551, -29551, -29551, -29551]], 2, 2, 55799, [(.ascending, 1, 45067, 45067)]⟩, 
    ⟨[1, 8], [[286123, 246065, 251788, 249642], [-32546, -32546, -32546, -32546, -32546, -32546, -32546, -32546, -30713, -30713, -30713, -30713, -30713, -30713, -30713, -30713, -29551, -29551, -29551, -29551, -29551, -29551, -29551, -29551, -30400, -30400, -30400, -30400, -30400, -30400, -30400, -30400]], 3, 3, 62241, [(.ascending, 2, (5436967 / 100), (5436967 / 100))]⟩, 
    ⟨[1, 8], [[286123, 246065, 251788, 249642, 239985], [-32546, -32546, -32546, -32546, -32546, -32546, -32546, -32546, -30713, -30713, -30713, -30713, -30713, -30713, -30713, -30713, -29551, -29551, -29551, -29551, -29551, -29551, -29551, -29551, -30400, -30400, -30400, -30400, -30400, -30400, -30400, -30400, -28701, -28701, -28701, -28701, -28701, -28701, -28701, -28701]], 4, 4, 78698, [(.ascending, 3, 71363, 71363)]⟩, 
    ⟨[1, 8], [[157200, 160080], [-19500, -19500, -19500, -19500, -19500, -19500, -19500, -19500, -19250, -19250, -19250, -19250, -19250, -19250, -19250, -19250]], 2, 2, 7280, [(.ascending, 1, 5080, 5080)]⟩, 
    ⟨[1, 8], [[157200, 160080, 159920], [-19500, -19500, -19500, -19500, -19500, -19500, -19500, -19500, -19250, -19250, -19250, -19250, -19250, -19250, -19250, -19250, -19889, -19889, -19889, -19889, -19889, -19889, -19889, -19889]], 2, 2, 10000, [(.ascending, 2, 10000, 10000)]⟩, 
    ⟨[1, 8], [[157200, 160080, 159920, 158479], [-19500, -19500, -19500, -19500, -19500, -19500, -19500, -19500, -19250, -19250, -19250, -19250, -19250, -19250, -19250, -19250, -19889, -19889, -19889, -19889, -19889, -19889, -19889, -19889, -19490, -19490, -19490, -19490, -19490, -19490, -19490, -19490]], 3, 3, 12559, [(.ascending, 2, (938667 / 100), (938667 / 100))]⟩, 
    ⟨[1, 8], [[157200, 160080, 159920, 158479, 155520], [-19500, -19500, -19500, -19500, -19500, -19500, -19500, -19500, -19250, -19250, -19250, -19250, -19250, -19250, -19250, -19250, -19889, -19889, -19889, -19889, -19889, -19889, -19889, -19889, -19490, -19490, -19490, -19490, -19490, -19490, -19490, -19490, -19280, -19280, -19280, -19280, -19280, -19280, -19280, -19280]], 4, 4, 15519, [(.ascending, 3, 13359, 13359)]⟩, 
    ⟨[1, 8], [[20000, 15833], [-2437, -2437, -2437, -2437, -2437, -2437, -2437, -2437, -1968, -1968, -1968, -1968, -1968, -1968, -1968, -1968]], 1, 1, 4256, [(.ascending, 1, 4256, 4256)]⟩, 
    ⟨[1, 8], [[20000, 15833, 14166], [-2437, -2437, -2437, -2437, -2437, -2437, -2437, -2437, -1968, -1968, -1968, -1968, -1968, -1968, -1968, -1968, -1760, -1760, -1760, -1760, -1760, -1760, -1760, -1760]], 2, 2, 6009, [(.ascending, 1, 5088, 5088)]⟩, 
    ⟨[1, 8], [[20000, 15833, 14166, 14000], [-2437, -2437, -2437, -2437, -2437, -2437, -2437, -2437, -1968, -1968, -1968, -1968, -1968, -1968, -1968, -1968, -1760, -1760, -1760, -1760, -1760, -1760, -1760, -1760, -1729, -1729, -1729, -1729, -1729, -1729, -1729, -1729]], 2, 2, 7921, [(.ascending, 2, 7921, 7921)]⟩, 
    ⟨[1, 8], [[20000, 15833, 14166, 14000, 13166], [-2437, -2437, -2437, -2437, -2437, -2437, -2437, -2437, -1968, -1968, -1968, -1968, -1968, -1968, -1968, -1968, -1760, -1760, -1760, -1760, -1760, -1760, -1760, -1760, -1729, -1729, -1729, -1729, -1729, -1729, -1729, -1729, -1635, -1635, -1635, -1635, -1635, -1635, -1635, -1635]], 3, 3, 9007, [(.ascending, 2, 8505, 8505)]⟩, 
    ⟨[1, 8], [[6699, 6814], [-837, -837, -837, -837, -837, -837, -837, -837, -835, -835, -835, -835, -835, -835, -835, -835]], 2, 2, 137, [(.ascending, 1, 126, 126)]⟩, 
    ⟨[1, 8], [[6699, 6814, 6831], [-837, -837, -837, -837, -837, -837, -837, -837, -835, -835, -835, -835, -835, -835, -835, -835, -839, -839, -839, -839, -839, -839, -839, -839]], 2, 2, 269, [(.ascending, 2, 269, 269)]⟩, 
    ⟨[1, 8], [[6699, 6814, 6831, 6683], [-837, -837, -837, -837, -837, -837, -837, -837, -835, -835, -835, -835, -835, -835, -835, -835, -839, -839, -839, -839, -839, -839, -839, -839, -831, -831, -831, -831, -831, -831, -831, -831]], 3, 3, 320, [(.ascending, 2, (29567 / 100), (29567 / 100))]⟩, 
    ⟨[1, 8], [[6699, 6814, 6831, 6683, 6633], [-837, -837, -837, -837, -837, -837, -837, -837, -835, -835, -835, -835, -835, -835, -835, -835, -839, -839, -839, -839, -839, -839, -839, -839, -831, -831, -831, -831, -831, -831, -831, -831, -814, -814, -814, -814, -814, -814, -814, -814]], 3, 3, 504, [(.ascending, 3, 504, 504)]⟩, 
    ⟨[1, 8], [[37000, 37125], [-4625, -4625, -4625, -4625, -4625, -4625, -4625, -4625, -4640, -4640, -4640, -4640, -4640, -4640, -4640, -4640]], 1, 1, 125, [(.ascending, 1, 125, 125)]⟩, 
    ⟨[1, 8], [[37000, 37125, 37000], [-4625, -4625, -4625, -4625, -4625, -4625, -4625, -4625, -4640, -4640, -4640, -4640, -4640, -4640, -4640, -4640, -4625, -4625, -4625, -4625, -4625, -4625, -4625, -4625]], 1, 2, 125, [(.ascending, 1, 125, 125)]⟩, 
    ⟨[1, 8], [[37000, 37125, 37000, 37000], [-4625, -4625, -4625, -4625, -4625, -4625, -4625, -4625, -4640, -4640, -4640, -4640, -4640, -4640, -4640, -4640, -4625, -4625, -4625, -4625, -4625, -4625, -4625, -4625, -4625, -4625, -4625, -4625, -4625, -4625, -4625, -4625]], 1, 3, 125, [(.ascending, 2, 125, 125)]⟩, 
    ⟨[1, 8], [[37000, 37125, 37000, 37000, 37000], [-4625, -4625, -4625, -4625, -4625, -4625, -4625, -4625, -4640, -4640, -4640, -4640, -4640, -4640, -4640, -4640, -4625, -4625, -4625, -4625, -4625, -4625, -4625, -4625, -4625, -4625, -4625, -4625, -4625, -4625, -4625, -4625, -4625, -4625, -4625, -4625, -4625, -4625, -4625, -4625]], 1, 4, 125, [(.ascending, 3, 125, 125)]⟩, 
    ⟨[1, 8], [[129895, 130310], [-16133, -16133, -16133, -16133, -16133, -16133, -16133, -16133, -16236, -16236, -16236, -16236, -16236, -16236, -16236, -16236]], 2, 2, 1253, [(.ascending, 1, 834, 834)]⟩, 
    ⟨[1, 8], [[129895, 130310, 130310], [-16133, -16133, -16133, -16133, -16133, -16133, -16133, -16133, -16236, -16236, -16236, -16236, -16236, -16236, -16236, -16236, -16288, -16288, -16288, -16288, -16288, -16288, -16288, -16288]], 2, 2, 1668, [(.ascending, 2, 1668, 1668)]⟩, 
    ⟨[1, 8], [[129895, 130310, 130310, 129065], [-16133, -16133, -16133, -16133, -16133, -16133, -16133, -16133, -16236, -16236, -16236, -16236, -16236, -16236, -16236, -16236, -16288, -16288, -16288, -16288, -16288, -16288, -16288, -16288, -16133, -16133, -16133, -16133, -16133, -16133, -16133, -16133]], 3, 3, 2499, [(.ascending, 2, (194267 / 100), (194267 / 100))]⟩, 
    ⟨[1, 8], [[129895, 130310, 130310, 129065, 129065], [-16133, -16133, -16133, -16133, -16133, -16133, -16133, -16133, -16236, -16236, -16236, -16236, -16236, -16236, -16236, -16236, -16288, -16288, -16288, -16288, -16288, -16288, -16288, -16288, -16133, -16133, -16133, -16133, -16133, -16133, -16133, -16133, -16081, -16081, -16081, -16081, -16081, -16081, -16081, -16081]], 3, 3, 3739, [(.ascending, 3, 3739, 3739)]⟩] : List Run).all Run.agrees = true := by decide +kernel

/-- `stock/results_bak/WithGft0Integers/experiment_sbb_with_vectors_of_multi_stock(2, 2).csv`: 24 of its rows. -/
example : ([
    ⟨[2, 2], [[71530, 71530, 61516, 61516], [-32546, -32546, -30713, -30713]], 2, 2, 139574, [(.ascending, 1, 73125, 73125)]⟩, 
    ⟨[2, 2], [[71530, 71530, 61516, 61516, 62947, 62947], [-32546, -32546, -30713, -30713, -29551, -29551]], 3, 3, 206366, [(.ascending, 2, (14062933 / 100), (14062933 / 100))]⟩, 
    ⟨[2, 2], [[71530, 71530, 61516, 61516, 62947, 62947, 62410, 62410], [-32546, -32546, -30713, -30713, -29551, -29551, -30400, -30400]], 4, 4, 270386, [(.ascending, 3, (20543357 / 100), (20543357 / 100))]⟩, 
    ⟨[2, 2], [[71530, 71530, 61516, 61516, 62947, 62947, 62410, 62410, 59996, 59996], [-32546, -32546, -30713, -30713, -29551, -29551, -30400, -30400, -28701, -28701]], 5, 5, 332976, [(.ascending, 4, (26965529 / 100), (26965529 / 100))]⟩, 
    ⟨[2, 2], [[39300, 39300, 40020, 40020], [-19500, -19500, -19250, -19250]], 2, 2, 81140, [(.ascending, 1, 40810, 40810)]⟩, 
    ⟨[2, 2], [[39300, 39300, 40020, 40020, 39980, 39980], [-19500, -19500, -19250, -19250, -19889, -19889]], 3, 3, 121322, [(.ascending, 2, (8125467 / 100), (8125467 / 100))]⟩, 
    ⟨[2, 2], [[39300, 39300, 40020, 40020, 39980, 39980, 39619, 39619], [-19500, -19500, -19250, -19250, -19889, -19889, -19490, -19490]], 4, 4, 161580, [(.ascending, 3, (3038834 / 25), (3038834 / 25))]⟩, 
    ⟨[2, 2], [[39300, 39300, 40020, 40020, 39980, 39980, 39619, 39619, 38880, 38880], [-19500, -19500, -19250, -19250, -19889, -19889, -19490, -19490, -19280, -19280]], 5, 5, 200780, [(.ascending, 4, (16122827 / 100), (16122827 / 100))]⟩, 
    ⟨[2, 2], [[5000, 5000, 3958, 3958], [-2437, -2437, -1968, -1968]], 2, 2, 9106, [(.ascending, 1, (490033 / 100), (490033 / 100))]⟩, 
    ⟨[2, 2], [[5000, 5000, 3958, 3958, 3541, 3541], [-2437, -2437, -1968, -1968, -1760, -1760]], 3, 3, 12668, [(.ascending, 2, (44728 / 5), (44728 / 5))]⟩, 
    ⟨[2, 2], [[5000, 5000, 3958, 3958, 3541, 3541, 3500, 3500], [-2437, -2437, -1968, -1968, -1760, -1760, -1729, -1729]], 4, 4, 16210, [(.ascending, 3, (629293 / 50), (629293 / 50))]⟩, 
    ⟨[2, 2], [[5000, 5000, 3958, 3958, 3541, 3541, 3500, 3500, 3291, 3291], [-2437, -2437, -1968, -1968, -1760, -1760, -1729, -1729, -1635, -1635]], 5, 5, 19522, [(.ascending, 4, (80608 / 5), (80608 / 5))]⟩, 
    ⟨[2, 2], [[1674, 1674, 1703, 1703], [-837, -837, -835, -835]], 2, 2, 3410, [(.ascending, 1, (171467 / 100), (171467 / 100))]⟩, 
    ⟨[2, 2], [[1674, 1674, 1703, 1703, 1707, 1707], [-837, -837, -835, -835, -839, -839]], 3, 3, 5146, [(.ascending, 2, (17236 / 5), (17236 / 5))]⟩, 
    ⟨[2, 2], [[1674, 1674, 1703, 1703, 1707, 1707, 1670, 1670], [-837, -837, -835, -835, -839, -839, -831, -831]], 4, 4, 6824, [(.ascending, 3, (256693 / 50), (256693 / 50))]⟩, 
    ⟨[2, 2], [[1674, 1674, 1703, 1703, 1707, 1707, 1670, 1670, 1658, 1658], [-837, -837, -835, -835, -839, -839, -831, -831, -814, -814]], 5, 5, 8512, [(.ascending, 4, (683129 / 100), (683129 / 100))]⟩, 
    ⟨[2, 2], [[9250, 9250, 9281, 9281], [-4625, -4625, -4640, -4640]], 2, 2, 18532, [(.ascending, 1, (927633 / 100), (927633 / 100))]⟩, 
    ⟨[2, 2], [[9250, 9250, 9281, 9281, 9250, 9250], [-4625, -4625, -4640, -4640, -4625, -4625]], 3, 3, 27782, [(.ascending, 2, (92648 / 5), (92648 / 5))]⟩, 
    ⟨[2, 2], [[9250, 9250, 9281, 9281, 9250, 9250, 9250, 9250], [-4625, -4625, -4640, -4640, -4625, -4625, -4625, -4625]], 4, 4, 37032, [(.ascending, 3, (694516 / 25), (694516 / 25))]⟩, 
    ⟨[2, 2], [[9250, 9250, 9281, 9281, 9250, 9250, 9250, 9250, 9250, 9250], [-4625, -4625, -4640, -4640, -4625, -4625, -4625, -4625, -4625, -4625]], 5, 5, 46282, [(.ascending, 4, (3703111 / 100), (3703111 / 100))]⟩, 
    ⟨[2, 2], [[32473, 32473, 32577, 32577], [-16133, -16133, -16236, -16236]], 2, 2, 65362, [(.ascending, 1, (3271567 / 100), (3271567 / 100))]⟩, 
    ⟨[2, 2], [[32473, 32473, 32577, 32577, 32577, 32577], [-16133, -16133, -16236, -16236, -16288, -16288]], 3, 3, 97940, [(.ascending, 2, (326744 / 5), (326744 / 5))]⟩, 
    ⟨[2, 2], [[32473, 32473, 32577, 32577, 32577, 32577, 32266, 32266], [-16133, -16133, -16236, -16236, -16288, -16288, -16133, -16133]], 4, 4, 130206, [(.ascending, 3, (4891607 / 50), (4891607 / 50))]⟩, 
    ⟨[2, 2], [[32473, 32473, 32577, 32577, 32577, 32577, 32266, 32266, 32266, 32266], [-16133, -16133, -16236, -16236, -16288, -16288, -16133, -16133, -16081, -16081]], 5, 5, 162576, [(.ascending, 4, (6510409 / 50), (6510409 / 50))]⟩] : List Run).all Run.agrees = true := by decide +kernel

/-- `stock/results_bak/WithGft0Integers/experiment_sbb_with_vectors_of_multi_stock(2, 2, 2).csv`: 24 of its rows. -/
example : ([
    ⟨[2, 2, 2], [[67238, 59638, 62947, 59817], [-32546, -30713, -29551, -30400], [-28612, -28478, -28657, -28612]], 1, 1, 13144, [(.ascending, 1, (1260767 / 100), (1260767 / 100))]⟩, 
    ⟨[2, 2, 2], [[67238, 59638, 62947, 59817, 59370, 59146], [-32546, -30713, -29551, -30400, -28701, -29238], [-28612, -28478, -28657, -28612, -28612, -29148]], 2, 2, 17436, [(.ascending, 2, (86866 / 5), (86866 / 5))]⟩, 
    ⟨[2, 2, 2], [[39000, 40000, 39500, 39159], [-19500, -19250, -19889, -19490], [-19170, -19250, -19250, -19270]], 2, 2, 2590, [(.ascending, 1, (183267 / 100), (183267 / 100))]⟩, 
    ⟨[2, 2, 2], [[39000, 40000, 39500, 39159, 38690, 38389], [-19500, -19250, -19889, -19490, -19280, -19070], [-19170, -19250, -19250, -19270, -19240, -19000]], 2, 2, 3909, [(.ascending, 2, 3909, 3909)]⟩, 
    ⟨[2, 2, 2], [[4458, 3708, 3479, 3385], [-2437, -1968, -1760, -1729], [-1927, -1708, -1625, -1635]], 1, 1, 1417, [(.ascending, 1, 1417, 1417)]⟩, 
    ⟨[2, 2, 2], [[4458, 3708, 3479, 3385, 3072, 2843], [-2437, -1968, -1760, -1729, -1635, -1437], [-1927, -1708, -1625, -1635, -1375, -1312]], 2, 2, 2522, [(.ascending, 1, 1688, 1688)]⟩, 
    ⟨[2, 2, 2], [[1660, 1691, 1685, 1650], [-837, -835, -839, -831], [-823, -835, -831, -792]], 1, 1, 95, [(.ascending, 1, 95, 95)]⟩, 
    ⟨[2, 2, 2], [[1660, 1691, 1685, 1650, 1646, 1656], [-837, -835, -839, -831, -814, -816], [-823, -835, -831, -792, -804, -810]], 2, 2, 167, [(.ascending, 1, (11267 / 100), (11267 / 100))]⟩, 
    ⟨[2, 2, 2], [[9250, 9281, 9250, 9250], [-4625, -4640, -4625, -4625], [-4625, -4640, -4625, -4625]], 1, 1, 31, [(.ascending, 1, 31, 31)]⟩, 
    ⟨[2, 2, 2], [[9250, 9281, 9250, 9250, 9250, 9250], [-4625, -4640, -4625, -4625, -4625, -4625], [-4625, -4640, -4625, -4625, -4625, -4625]], 1, 2, 31, [(.ascending, 2, 31, 31)]⟩, 
    ⟨[2, 2, 2], [[32473, 32577, 32473, 32214], [-16133, -16236, -16288, -16133], [-16133, -16184, -16133, -15925]], 1, 1, 726, [(.ascending, 1, (55333 / 100), (55333 / 100))]⟩, 
    ⟨[2, 2, 2], [[32473, 32577, 32473, 32214, 32266, 32629], [-16133, -16236, -16288, -16133, -16081, -16133], [-16133, -16184, -16133, -15925, -15925, -16133]], 2, 2, 1556, [(.ascending, 2, 1556, 1556)]⟩, 
    ⟨[2, 2, 2], [[26350, 26350, 26350, 25300], [-13150, -13150, -13150, -12700], [-13150, -13150, -13150, -12400]], 1, 1, 1300, [(.ascending, 1, 900, 900)]⟩, 
    ⟨[2, 2, 2], [[26350, 26350, 26350, 25300, 24750, 25100], [-13150, -13150, -13150, -12700, -12350, -12300], [-13150, -13150, -13150, -12400, -12200, -12300]], 2, 2, 3800, [(.ascending, 1, 3200, 3200)]⟩, 
    ⟨[2, 2, 2], [[1782, 1595, 1738, 1738], [-938, -797, -832, -865], [-775, -721, -806, -837]], 1, 1, 395, [(.ascending, 1, (32267 / 100), (32267 / 100))]⟩, 
    ⟨[2, 2, 2], [[1782, 1595, 1738, 1738, 1631, 1459], [-938, -797, -832, -865, -827, -747], [-775, -721, -806, -837, -758, -701]], 2, 2, 731, [(.ascending, 1, (44717 / 100), (44717 / 100))]⟩, 
    ⟨[2, 2, 2], [[4326, 4322, 4318, 4282], [-2149, -2153, -2149, -2149], [-2149, -2141, -2141, -2116]], 2, 2, 101, [(.ascending, 1, (8067 / 100), (8067 / 100))]⟩, 
    ⟨[2, 2, 2], [[4326, 4322, 4318, 4282, 4249, 4225], [-2149, -2153, -2149, -2149, -2124, -2112], [-2149, -2141, -2141, -2116, -2112, -2096]], 2, 2, 249, [(.ascending, 1, (17133 / 100), (17133 / 100))]⟩, 
    ⟨[2, 2, 2], [[441000, 435000, 438000, 435000], [-219000, -219000, -216000, -219000], [-216000, -216000, -216000, -216000]], 1, 2, 12000, [(.ascending, 1, 8000, 8000)]⟩, 
    ⟨[2, 2, 2], [[441000, 435000, 438000, 435000, 438000, 441000], [-219000, -219000, -216000, -219000, -216000, -222000], [-216000, -216000, -216000, -216000, -216000, -219000]], 2, 2, 24000, [(.ascending, 2, 24000, 24000)]⟩, 
    ⟨[2, 2, 2], [[1312, 1398, 1421, 1500], [-539, -656, -695, -726], [-539, -632, -671, -695]], 1, 1, 555, [(.ascending, 1, 433, 433)]⟩, 
    ⟨[2, 2, 2], [[1312, 1398, 1421, 1500, 1492, 1414], [-539, -656, -695, -726, -742, -710], [-539, -632, -671, -695, -710, -679]], 2, 2, 706, [(.ascending, 1, (763 / 2), (763 / 2))]⟩, 
    ⟨[2, 2, 2], [[101818, 108289, 111023, 107830], [-49813, -50316, -55168, -55412], [-47800, -50062, -54321, -51591]], 1, 1, 21321, [(.ascending, 1, (1954767 / 100), (1954767 / 100))]⟩, 
    ⟨[2, 2, 2], [[101818, 108289, 111023, 107830, 106600, 107526], [-49813, -50316, -55168, -55412, -52284, -52279], [-47800, -50062, -54321, -51591, -51746, -52134]], 2, 2, 28777, [(.ascending, 2, 28777, 28777)]⟩] : List Run).all Run.agrees = true := by decide +kernel

/-- `stock/results_bak/WithGft0Integers/experiment_sbb_with_vectors_of_multi_stock(2, 3).csv`: 24 of its rows. -/
example : ([
    ⟨[2, 3], [[107296, 107296, 92274, 92274], [-32546, -32546, -32546, -30713, -30713, -30713]], 2, 2, 209363, [(.ascending, 1, (10968883 / 100), (10968883 / 100))]⟩, 
    ⟨[2, 3], [[107296, 107296, 92274, 92274, 94420, 94420], [-32546, -32546, -32546, -30713, -30713, -30713, -29551, -29551, -29551]], 3, 3, 309550, [(.ascending, 2, (1054724 / 5), (1054724 / 5))]⟩, 
    ⟨[2, 3], [[107296, 107296, 92274, 92274, 94420, 94420, 93615, 93615], [-32546, -32546, -32546, -30713, -30713, -30713, -29551, -29551, -29551, -30400, -30400, -30400]], 4, 4, 405580, [(.ascending, 3, (30815121 / 100), (30815121 / 100))]⟩, 
    ⟨[2, 3], [[107296, 107296, 92274, 92274, 94420, 94420, 93615, 93615, 89994, 89994], [-32546, -32546, -32546, -30713, -30713, -30713, -29551, -29551, -29551, -30400, -30400, -30400, -28701, -28701, -28701]], 5, 5, 499465, [(.ascending, 4, (20224191 / 50), (20224191 / 50))]⟩, 
    ⟨[2, 3], [[58949, 58949, 60030, 60030], [-19500, -19500, -19500, -19250, -19250, -19250]], 2, 2, 121708, [(.ascending, 1, (6121433 / 100), (6121433 / 100))]⟩, 
    ⟨[2, 3], [[58949, 58949, 60030, 60030, 59970, 59970], [-19500, -19500, -19500, -19250, -19250, -19250, -19889, -19889, -19889]], 3, 3, 181981, [(.ascending, 2, (609406 / 5), (609406 / 5))]⟩, 
    ⟨[2, 3], [[58949, 58949, 60030, 60030, 59970, 59970, 59429, 59429], [-19500, -19500, -19500, -19250, -19250, -19250, -19889, -19889, -19889, -19490, -19490, -19490]], 4, 4, 242369, [(.ascending, 3, (4558251 / 25), (4558251 / 25))]⟩, 
    ⟨[2, 3], [[58949, 58949, 60030, 60030, 59970, 59970, 59429, 59429, 58320, 58320], [-19500, -19500, -19500, -19250, -19250, -19250, -19889, -19889, -19889, -19490, -19490, -19490, -19280, -19280, -19280]], 5, 5, 301169, [(.ascending, 4, (24184151 / 100), (24184151 / 100))]⟩, 
    ⟨[2, 3], [[7500, 7500, 5937, 5937], [-2437, -2437, -2437, -1968, -1968, -1968]], 2, 2, 13659, [(.ascending, 1, (14701 / 2), (14701 / 2))]⟩, 
    ⟨[2, 3], [[7500, 7500, 5937, 5937, 5312, 5312], [-2437, -2437, -2437, -1968, -1968, -1968, -1760, -1760, -1760]], 3, 3, 19003, [(.ascending, 2, (67094 / 5), (67094 / 5))]⟩, 
    ⟨[2, 3], [[7500, 7500, 5937, 5937, 5312, 5312, 5250, 5250], [-2437, -2437, -2437, -1968, -1968, -1968, -1760, -1760, -1760, -1729, -1729, -1729]], 4, 4, 24316, [(.ascending, 3, (471991 / 25), (471991 / 25))]⟩, 
    ⟨[2, 3], [[7500, 7500, 5937, 5937, 5312, 5312, 5250, 5250, 4937, 4937], [-2437, -2437, -2437, -1968, -1968, -1968, -1760, -1760, -1760, -1729, -1729, -1729, -1635, -1635, -1635]], 5, 5, 29285, [(.ascending, 4, (2418373 / 100), (2418373 / 100))]⟩, 
    ⟨[2, 3], [[2512, 2512, 2555, 2555], [-837, -837, -837, -835, -835, -835]], 2, 2, 5118, [(.ascending, 1, (257333 / 100), (257333 / 100))]⟩, 
    ⟨[2, 3], [[2512, 2512, 2555, 2555, 2561, 2561], [-837, -837, -837, -835, -835, -835, -839, -839, -839]], 3, 3, 7723, [(.ascending, 2, (25866 / 5), (25866 / 5))]⟩, 
    ⟨[2, 3], [[2512, 2512, 2555, 2555, 2561, 2561, 2506, 2506], [-837, -837, -837, -835, -835, -835, -839, -839, -839, -831, -831, -831]], 4, 4, 10242, [(.ascending, 3, (770507 / 100), (770507 / 100))]⟩, 
    ⟨[2, 3], [[2512, 2512, 2555, 2555, 2561, 2561, 2506, 2506, 2487, 2487], [-837, -837, -837, -835, -835, -835, -839, -839, -839, -831, -831, -831, -814, -814, -814]], 5, 5, 12774, [(.ascending, 4, (1025227 / 100), (1025227 / 100))]⟩, 
    ⟨[2, 3], [[13875, 13875, 13921, 13921], [-4625, -4625, -4625, -4640, -4640, -4640]], 2, 2, 27797, [(.ascending, 1, (1391383 / 100), (1391383 / 100))]⟩, 
    ⟨[2, 3], [[13875, 13875, 13921, 13921, 13875, 13875], [-4625, -4625, -4625, -4640, -4640, -4640, -4625, -4625, -4625]], 3, 3, 41672, [(.ascending, 2, (138968 / 5), (138968 / 5))]⟩, 
    ⟨[2, 3], [[13875, 13875, 13921, 13921, 13875, 13875, 13875, 13875], [-4625, -4625, -4625, -4640, -4640, -4640, -4625, -4625, -4625, -4625, -4625, -4625]], 4, 4, 55547, [(.ascending, 3, (4167011 / 100), (4167011 / 100))]⟩, 
    ⟨[2, 3], [[13875, 13875, 13921, 13921, 13875, 13875, 13875, 13875, 13875, 13875], [-4625, -4625, -4625, -4640, -4640, -4640, -4625, -4625, -4625, -4625, -4625, -4625, -4625, -4625, -4625]], 5, 5, 69422, [(.ascending, 4, (2777289 / 50), (2777289 / 50))]⟩, 
    ⟨[2, 3], [[48710, 48710, 48866, 48866], [-16133, -16133, -16133, -16236, -16236, -16236]], 2, 2, 98045, [(.ascending, 1, (98149 / 2), (98149 / 2))]⟩, 
    ⟨[2, 3], [[48710, 48710, 48866, 48866, 48866, 48866], [-16133, -16133, -16133, -16236, -16236, -16236, -16288, -16288, -16288]], 3, 3, 146913, [(.ascending, 2, (490126 / 5), (490126 / 5))]⟩, 
    ⟨[2, 3], [[48710, 48710, 48866, 48866, 48866, 48866, 48399, 48399], [-16133, -16133, -16133, -16236, -16236, -16236, -16288, -16288, -16288, -16133, -16133, -16133]], 4, 4, 195312, [(.ascending, 3, (14675079 / 100), (14675079 / 100))]⟩, 
    ⟨[2, 3], [[48710, 48710, 48866, 48866, 48866, 48866, 48399, 48399, 48399, 48399], [-16133, -16133, -16133, -16236, -16236, -16236, -16288, -16288, -16288, -16133, -16133, -16133, -16081, -16081, -16081]], 5, 5, 243867, [(.ascending, 4, (19531493 / 100), (19531493 / 100))]⟩] : List Run).all Run.agrees = true := by decide +kernel

/-- `stock/results_bak/WithGft0Integers/experiment_sbb_with_vectors_of_multi_stock(3, 3).csv`: 24 of its rows. -/
example : ([
    ⟨[3, 3], [[107296, 107296, 107296, 92274, 92274, 92274], [-32546, -32546, -32546, -30713, -30713, -30713]], 2, 2, 408933, [(.ascending, 1, (2089731 / 10), (2089731 / 10))]⟩, 
    ⟨[3, 3], [[107296, 107296, 107296, 92274, 92274, 92274, 94420, 94420, 94420], [-32546, -32546, -32546, -30713, -30713, -30713, -29551, -29551, -29551]], 3, 3, 603540, [(.ascending, 2, 406652, 406652)]⟩, 
    ⟨[3, 3], [[107296, 107296, 107296, 92274, 92274, 92274, 94420, 94420, 94420, 93615, 93615, 93615], [-32546, -32546, -32546, -30713, -30713, -30713, -29551, -29551, -29551, -30400, -30400, -30400]], 4, 4, 793185, [(.ascending, 3, (14966867 / 25), (14966867 / 25))]⟩, 
    ⟨[3, 3], [[107296, 107296, 107296, 92274, 92274, 92274, 94420, 94420, 94420, 93615, 93615, 93615, 89994, 89994, 89994], [-32546, -32546, -32546, -30713, -30713, -30713, -29551, -29551, -29551, -30400, -30400, -30400, -28701, -28701, -28701]], 5, 5, 977064, [(.ascending, 4, (3931938 / 5), (3931938 / 5))]⟩, 
    ⟨[3, 3], [[58949, 58949, 58949, 60030, 60030, 60030], [-19500, -19500, -19500, -19250, -19250, -19250]], 2, 2, 240687, [(.ascending, 1, (603339 / 5), (603339 / 5))]⟩, 
    ⟨[3, 3], [[58949, 58949, 58949, 60030, 60030, 60030, 59970, 59970, 59970], [-19500, -19500, -19500, -19250, -19250, -19250, -19889, -19889, -19889]], 3, 3, 360930, [(.ascending, 2, (482291 / 2), (482291 / 2))]⟩, 
    ⟨[3, 3], [[58949, 58949, 58949, 60030, 60030, 60030, 59970, 59970, 59970, 59429, 59429, 59429], [-19500, -19500, -19500, -19250, -19250, -19250, -19889, -19889, -19889, -19490, -19490, -19490]], 4, 4, 480747, [(.ascending, 3, (36108839 / 100), (36108839 / 100))]⟩, 
    ⟨[3, 3], [[58949, 58949, 58949, 60030, 60030, 60030, 59970, 59970, 59970, 59429, 59429, 59429, 58320, 58320, 58320], [-19500, -19500, -19500, -19250, -19250, -19250, -19889, -19889, -19889, -19490, -19490, -19490, -19280, -19280, -19280]], 5, 5, 597867, [(.ascending, 4, (23958377 / 50), (23958377 / 50))]⟩, 
    ⟨[3, 3], [[7500, 7500, 7500, 5937, 5937, 5937], [-2437, -2437, -2437, -1968, -1968, -1968]], 2, 2, 27096, [(.ascending, 1, (140169 / 10), (140169 / 10))]⟩, 
    ⟨[3, 3], [[7500, 7500, 7500, 5937, 5937, 5937, 5312, 5312, 5312], [-2437, -2437, -2437, -1968, -1968, -1968, -1760, -1760, -1760]], 3, 3, 37752, [(.ascending, 2, (103485 / 4), (103485 / 4))]⟩, 
    ⟨[3, 3], [[7500, 7500, 7500, 5937, 5937, 5937, 5312, 5312, 5312, 5250, 5250, 5250], [-2437, -2437, -2437, -1968, -1968, -1968, -1760, -1760, -1760, -1729, -1729, -1729]], 4, 4, 48315, [(.ascending, 3, (921242 / 25), (921242 / 25))]⟩, 
    ⟨[3, 3], [[7500, 7500, 7500, 5937, 5937, 5937, 5312, 5312, 5312, 5250, 5250, 5250, 4937, 4937, 4937], [-2437, -2437, -2437, -1968, -1968, -1968, -1760, -1760, -1760, -1729, -1729, -1729, -1635, -1635, -1635]], 5, 5, 58221, [(.ascending, 4, (2365277 / 50), (2365277 / 50))]⟩, 
    ⟨[3, 3], [[2512, 2512, 2512, 2555, 2555, 2555], [-837, -837, -837, -835, -835, -835]], 2, 2, 10185, [(.ascending, 1, (25527 / 5), (25527 / 5))]⟩, 
    ⟨[3, 3], [[2512, 2512, 2512, 2555, 2555, 2555, 2561, 2561, 2561], [-837, -837, -837, -835, -835, -835, -839, -839, -839]], 3, 3, 15351, [(.ascending, 2, 10257, 10257)]⟩, 
    ⟨[3, 3], [[2512, 2512, 2512, 2555, 2555, 2555, 2561, 2561, 2561, 2506, 2506, 2506], [-837, -837, -837, -835, -835, -835, -839, -839, -839, -831, -831, -831]], 4, 4, 20376, [(.ascending, 3, (30609 / 2), (30609 / 2))]⟩, 
    ⟨[3, 3], [[2512, 2512, 2512, 2555, 2555, 2555, 2561, 2561, 2561, 2506, 2506, 2506, 2487, 2487, 2487], [-837, -837, -837, -835, -835, -835, -839, -839, -839, -831, -831, -831, -814, -814, -814]], 5, 5, 25395, [(.ascending, 4, (2034789 / 100), (2034789 / 100))]⟩, 
    ⟨[3, 3], [[13875, 13875, 13875, 13921, 13921, 13921], [-4625, -4625, -4625, -4640, -4640, -4640]], 2, 2, 55593, [(.ascending, 1, (278103 / 10), (278103 / 10))]⟩, 
    ⟨[3, 3], [[13875, 13875, 13875, 13921, 13921, 13921, 13875, 13875, 13875], [-4625, -4625, -4625, -4640, -4640, -4640, -4625, -4625, -4625]], 3, 3, 83343, [(.ascending, 2, (111147 / 2), (111147 / 2))]⟩, 
    ⟨[3, 3], [[13875, 13875, 13875, 13921, 13921, 13921, 13875, 13875, 13875, 13875, 13875, 13875], [-4625, -4625, -4625, -4640, -4640, -4640, -4625, -4625, -4625, -4625, -4625, -4625]], 4, 4, 111093, [(.ascending, 3, (2083229 / 25), (2083229 / 25))]⟩, 
    ⟨[3, 3], [[13875, 13875, 13875, 13921, 13921, 13921, 13875, 13875, 13875, 13875, 13875, 13875, 13875, 13875, 13875], [-4625, -4625, -4625, -4640, -4640, -4640, -4625, -4625, -4625, -4625, -4625, -4625, -4625, -4625, -4625]], 5, 5, 138843, [(.ascending, 4, (11108229 / 100), (11108229 / 100))]⟩, 
    ⟨[3, 3], [[48710, 48710, 48710, 48866, 48866, 48866], [-16133, -16133, -16133, -16236, -16236, -16236]], 2, 2, 195621, [(.ascending, 1, (978573 / 10), (978573 / 10))]⟩, 
    ⟨[3, 3], [[48710, 48710, 48710, 48866, 48866, 48866, 48866, 48866, 48866], [-16133, -16133, -16133, -16236, -16236, -16236, -16288, -16288, -16288]], 3, 3, 293355, [(.ascending, 2, 195648, 195648)]⟩, 
    ⟨[3, 3], [[48710, 48710, 48710, 48866, 48866, 48866, 48866, 48866, 48866, 48399, 48399, 48399], [-16133, -16133, -16133, -16236, -16236, -16236, -16288, -16288, -16288, -16133, -16133, -16133]], 4, 4, 390153, [(.ascending, 3, (29286941 / 100), (29286941 / 100))]⟩, 
    ⟨[3, 3], [[48710, 48710, 48710, 48866, 48866, 48866, 48866, 48866, 48866, 48399, 48399, 48399, 48399, 48399, 48399], [-16133, -16133, -16133, -16236, -16236, -16236, -16288, -16288, -16288, -16133, -16133, -16133, -16081, -16081, -16081]], 5, 5, 487107, [(.ascending, 4, (38989903 / 100), (38989903 / 100))]⟩] : List Run).all Run.agrees = true := by decide +kernel

/-- `stock/results_bak/WithGft0Integers/experiment_sbb_with_vectors_of_multi_stock(4, 2, 6).csv`: 12 of its rows. -/
example : ([
    ⟨[4, 2, 6], [[286123, 286123, 286123, 286123, 246065, 246065, 246065, 246065], [-32546, -32546, -29551, -29551], [-30713, -30713, -30713, -30713, -30713, -30713, -30400, -30400, -30400, -30400, -30400, -30400]], 2, 2, 1637880, [(.ascending, 1, (20784587 / 25), (20784587 / 25))]⟩, 
    ⟨[4, 2, 6], [[286123, 286123, 286123, 286123, 246065, 246065, 246065, 246065, 251788, 251788, 251788, 251788], [-32546, -32546, -29551, -29551, -28701, -28701], [-30713, -30713, -30713, -30713, -30713, -30713, -30400, -30400, -30400, -30400, -30400, -30400, -29238, -29238, -29238, -29238, -29238, -29238]], 3, 3, 2412202, [(.ascending, 2, (162105709 / 100), (162105709 / 100))]⟩, 
    ⟨[4, 2, 6], [[157200, 157200, 157200, 157200, 160080, 160080, 160080, 160080], [-19500, -19500, -19889, -19889], [-19250, -19250, -19250, -19250, -19250, -19250, -19490, -19490, -19490, -19490, -19490, -19490]], 2, 2, 957902, [(.ascending, 1, (11997588 / 25), (11997588 / 25))]⟩, 
    ⟨[4, 2, 6], [[157200, 157200, 157200, 157200, 160080, 160080, 160080, 160080, 159920, 159920, 159920, 159920], [-19500, -19500, -19889, -19889, -19280, -19280], [-19250, -19250, -19250, -19250, -19250, -19250, -19490, -19490, -19490, -19490, -19490, -19490, -19070, -19070, -19070, -19070, -19070, -19070]], 3, 3, 1444602, [(.ascending, 2, (96469171 / 100), (96469171 / 100))]⟩, 
    ⟨[4, 2, 6], [[20000, 20000, 20000, 20000, 15833, 15833, 15833, 15833], [-2437, -2437, -1760, -1760], [-1968, -1968, -1968, -1968, -1968, -1968, -1729, -1729, -1729, -1729, -1729, -1729]], 2, 2, 112756, [(.ascending, 1, (1444856 / 25), (1444856 / 25))]⟩, 
    ⟨[4, 2, 6], [[20000, 20000, 20000, 20000, 15833, 15833, 15833, 15833, 14166, 14166, 14166, 14166], [-2437, -2437, -1760, -1760, -1635, -1635], [-1968, -1968, -1968, -1968, -1968, -1968, -1729, -1729, -1729, -1729, -1729, -1729, -1437, -1437, -1437, -1437, -1437, -1437]], 3, 3, 157528, [(.ascending, 2, (10723149 / 100), (10723149 / 100))]⟩, 
    ⟨[4, 2, 6], [[6699, 6699, 6699, 6699, 6814, 6814, 6814, 6814], [-837, -837, -839, -839], [-835, -835, -835, -835, -835, -835, -831, -831, -831, -831, -831, -831]], 2, 2, 40704, [(.ascending, 1, (509638 / 25), (509638 / 25))]⟩, 
    ⟨[4, 2, 6], [[6699, 6699, 6699, 6699, 6814, 6814, 6814, 6814, 6831, 6831, 6831, 6831], [-837, -837, -839, -839, -814, -814], [-835, -835, -835, -835, -835, -835, -831, -831, -831, -831, -831, -831, -816, -816, -816, -816, -816, -816]], 3, 3, 61504, [(.ascending, 2, (164279 / 4), (164279 / 4))]⟩, 
    ⟨[4, 2, 6], [[37000, 37000, 37000, 37000, 37125, 37125, 37125, 37125], [-4625, -4625, -4625, -4625], [-4640, -4640, -4640, -4640, -4640, -4640, -4625, -4625, -4625, -4625, -4625, -4625]], 2, 2, 222410, [(.ascending, 1, (11124071 / 100), (11124071 / 100))]⟩, 
    ⟨[4, 2, 6], [[37000, 37000, 37000, 37000, 37125, 37125, 37125, 37125, 37000, 37000, 37000, 37000], [-4625, -4625, -4625, -4625, -4625, -4625], [-4640, -4640, -4640, -4640, -4640, -4640, -4625, -4625, -4625, -4625, -4625, -4625, -4625, -4625, -4625, -4625, -4625, -4625]], 3, 3, 333410, [(.ascending, 2, (5557591 / 25), (5557591 / 25))]⟩, 
    ⟨[4, 2, 6], [[129895, 129895, 129895, 129895, 130310, 130310, 130310, 130310], [-16133, -16133, -16288, -16288], [-16236, -16236, -16236, -16236, -16236, -16236, -16133, -16133, -16133, -16133, -16133, -16133]], 2, 2, 781764, [(.ascending, 1, (9776306 / 25), (9776306 / 25))]⟩, 
    ⟨[4, 2, 6], [[129895, 129895, 129895, 129895, 130310, 130310, 130310, 130310, 130310, 130310, 130310, 130310], [-16133, -16133, -16288, -16288, -16081, -16081], [-16236, -16236, -16236, -16236, -16236, -16236, -16133, -16133, -16133, -16133, -16133, -16133, -16133, -16133, -16133, -16133, -16133, -16133]], 3, 3, 1174044, [(.ascending, 2, (3131975 / 4), (3131975 / 4))]⟩] : List Run).all Run.agrees = true := by decide +kernel

/-- `stock/results_bak/WithGft0Integers/experiment_sbb_with_vectors_of_multi_stock(4, 3, 2, 1).csv`: 12 of its rows. -/
example : ([
    ⟨[4, 3, 2, 1], [[214592, 214592, 214592, 214592, 184549, 184549, 184549, 184549], [-32546, -32546, -32546, -30400, -30400, -30400], [-30713, -30713, -28701, -28701], [-29551, -29238]], 2, 2, 1230109, [(.ascending, 1, (15623817 / 25), (15623817 / 25))]⟩, 
    ⟨[4, 3, 2, 1], [[214592, 214592, 214592, 214592, 184549, 184549, 184549, 184549, 188841, 188841, 188841, 188841], [-32546, -32546, -32546, -30400, -30400, -30400, -29327, -29327, -29327], [-30713, -30713, -28701, -28701, -30042, -30042], [-29551, -29238, -30177]], 3, 3, 1807231, [(.ascending, 2, (60760051 / 50), (60760051 / 50))]⟩, 
    ⟨[4, 3, 2, 1], [[117899, 117899, 117899, 117899, 120060, 120060, 120060, 120060], [-19500, -19500, -19500, -19490, -19490, -19490], [-19250, -19250, -19280, -19280], [-19889, -19070]], 2, 2, 718847, [(.ascending, 1, (36005393 / 100), (36005393 / 100))]⟩, 
    ⟨[4, 3, 2, 1], [[117899, 117899, 117899, 117899, 120060, 120060, 120060, 120060, 119940, 119940, 119940, 119940], [-19500, -19500, -19500, -19490, -19490, -19490, -19059, -19059, -19059], [-19250, -19250, -19280, -19280, -19049, -19049], [-19889, -19070, -19110]], 3, 3, 1084222, [(.ascending, 2, (18100392 / 25), (18100392 / 25))]⟩, 
    ⟨[4, 3, 2, 1], [[15000, 15000, 15000, 15000, 11875, 11875, 11875, 11875], [-2437, -2437, -2437, -1729, -1729, -1729], [-1968, -1968, -1635, -1635], [-1760, -1437]], 2, 2, 84599, [(.ascending, 1, (1087894 / 25), (1087894 / 25))]⟩, 
    ⟨[4, 3, 2, 1], [[15000, 15000, 15000, 15000, 11875, 11875, 11875, 11875, 10624, 10624, 10624, 10624], [-2437, -2437, -2437, -1729, -1729, -1729, -1406, -1406, -1406], [-1968, -1968, -1635, -1635, -1510, -1510], [-1760, -1437, -1625]], 3, 3, 118232, [(.ascending, 2, (4041557 / 50), (4041557 / 50))]⟩, 
    ⟨[4, 3, 2, 1], [[5024, 5024, 5024, 5024, 5111, 5111, 5111, 5111], [-837, -837, -837, -831, -831, -831], [-835, -835, -814, -814], [-839, -816]], 2, 2, 30583, [(.ascending, 1, (383129 / 25), (383129 / 25))]⟩, 
    ⟨[4, 3, 2, 1], [[5024, 5024, 5024, 5024, 5111, 5111, 5111, 5111, 5123, 5123, 5123, 5123], [-837, -837, -837, -831, -831, -831, -818, -818, -818], [-835, -835, -814, -814, -820, -820], [-839, -816, -835]], 3, 3, 46146, [(.ascending, 2, (1541247 / 50), (1541247 / 50))]⟩, 
    ⟨[4, 3, 2, 1], [[27750, 27750, 27750, 27750, 27843, 27843, 27843, 27843], [-4625, -4625, -4625, -4625, -4625, -4625], [-4640, -4640, -4625, -4625], [-4625, -4625]], 2, 2, 166842, [(.ascending, 1, (8345257 / 100), (8345257 / 100))]⟩, 
    ⟨[4, 3, 2, 1], [[27750, 27750, 27750, 27750, 27843, 27843, 27843, 27843, 27750, 27750, 27750, 27750], [-4625, -4625, -4625, -4625, -4625, -4625, -4656, -4656, -4656], [-4640, -4640, -4625, -4625, -4671, -4671], [-4625, -4625, -4734]], 3, 3, 249798, [(.ascending, 2, (8329529 / 50), (8329529 / 50))]⟩, 
    ⟨[4, 3, 2, 1], [[97421, 97421, 97421, 97421, 97732, 97732, 97732, 97732], [-16133, -16133, -16133, -16133, -16133, -16133], [-16236, -16236, -16081, -16081], [-16288, -16133]], 2, 2, 586759, [(.ascending, 1, (14676001 / 50), (14676001 / 50))]⟩, 
    ⟨[4, 3, 2, 1], [[97421, 97421, 97421, 97421, 97732, 97732, 97732, 97732, 97732, 97732, 97732, 97732], [-16133, -16133, -16133, -16133, -16133, -16133, -16288, -16288, -16288], [-16236, -16236, -16081, -16081, -16340, -16340], [-16288, -16133, -16340]], 3, 3, 879803, [(.ascending, 2, (29343021 / 50), (29343021 / 50))]⟩] : List Run).all Run.agrees = true := by decide +kernel

end Auctions.Fidelity
