#!/usr/bin/env python3
"""Turns outputs of the code that are recorded in /repo into kernel-checked examples about the Lean model.

Sources: stock/diff_in_sbbs_gft.txt (single markets with the trades of both strongly budget balanced auctions) and the tables in
stock/results_bak (experiments on the first n prices of each stock, which are not random). The tables were made with an older version of
trade_reduction_protocol.py, so its columns are not used; optimum, McAfee's protocol and the ascending auction are.
Nothing of /repo is run: the stock files and the tables are read as text, and the prices are computed here as in get_stocks_data.py.

usage: recorded.py            writes lean/Verif/Fidelity/Recorded.lean (small n)
       recorded.py dump N     prints all records with n <= N, one per line (for a check outside the kernel)
"""
import ast, csv, glob, os, re, sys
from fractions import Fraction

REPO = '/repo/stock/'
OUT = '/verif/lean/Verif/Fidelity/Recorded.lean'

def columns(name):
    rows = list(csv.DictReader(open(REPO + 'stocks/' + name + '.csv')))
    return [[float(r[t]) for r in rows] for t in ('High', 'Close', 'Open', 'Low')]

def prices(name, recipe):
    h, c, o, l = columns(name)
    o = [-x for x in o]; l = [-x for x in l]
    add = lambda a, b: [x + y for x, y in zip(a, b)]
    if recipe == (1, 1): d = [h + c, o + l]
    elif recipe == (2, 1): d = [h + c, add(o, l)]
    elif recipe == (1, 2): d = [add(h, c), o + l]
    elif recipe == (2, 1, 1): d = [h + c, o, l]
    elif recipe == (1, 1, 1): d = [add(h, c), o, l]
    elif len(recipe) == 3 and recipe[1:] == recipe[:-1]: d = [add(h, c), o, l]
    else:
        b = h + c; s = o + l; k = len(recipe)
        d = [[] for _ in recipe]
        d[0] = [x * (sum(recipe) - recipe[0]) for x in b for _ in range(recipe[0])]
        for i in range(len(s) * (k - 1)):
            j = i % (k - 1) + 1
            d[j] += [s[i % len(s)]] * recipe[j]
    return [[int(x * 1000) for x in cat] for cat in d]

def table(path):
    lines = list(csv.reader(open(path)))
    while lines[0][0] != 'stock_name': lines = lines[1:]
    return lines[0], lines[1:]

def records(maxn):
    """(file, stock, recipe, n, market, [k, k+0, gain], [(auction, deals, gain, market gain)])"""
    d = REPO + 'results_bak/'
    for f in [d + 'experiment_comparing_mcafee_to_sbb_stock_bak.csv'] + sorted(glob.glob(d + 'WithGft0Integers/*stock(*')):
        head, rows = table(f)
        cache = {}
        for row in rows:
            if not os.path.exists(REPO + 'stocks/' + row[0] + '.csv') or int(row[2]) > maxn: continue
            n, recipe, r = int(row[2]), tuple(map(int, row[1].split(':'))), dict(zip(head, row))
            if (row[0], recipe) not in cache: cache = {(row[0], recipe): prices(row[0], recipe)}
            p = cache[(row[0], recipe)]
            if n > len(p[0]): continue
            cats = [c[:n * k] for c, k in zip(p, recipe)]
            if 'mcafee' in f:
                trades = [(a, r[c + '_count'], r[c + '_total_gft'], r[c + '_market_gft']) for a, c in
                          ((0, 'McAfee'), (1, 'McAfee_Without_Heuristic'), (3, 'SBB_Ascending_Prices'))]
            else:
                c = 'SBB_Ascending_Prices'
                trades = [(3, r[c + '_auction_count'], r[c + '_gft'], r[c + '_gft'])]
            yield f, row[0], recipe, n, cats, [r['optimal_count'], r['optimal_count_with_gft_zero'], r['optimal_gft']], trades

def differences():
    lines = open(REPO + 'diff_in_sbbs_gft.txt').read().split('\n')
    for i, line in enumerate(lines):
        if not line.startswith('There is'): continue
        r = dict(ast.literal_eval(lines[i + 1]))
        cats = [list(map(int, c.split(','))) for c in re.findall(r'\[([-\d, ]+)\]', lines[i + 2])]
        recipe = tuple(map(int, r['recipe'].split(':')))
        trades = [(a, r[c + 'count'], r[c + 'totalgft'], r[c + 'marketgft']) for a, c in ((2, 'SBBExternalCompetition'), (3, 'SBBAscendingPrices'))]
        yield i + 1, recipe, cats, [r['optimalcount'], r['optimalcountwithgftzero'], r['optimalgft']], trades

AUCTION = ['.mcafee', '.mcafeeWithoutHeuristic', '.tradeReduction', '.ascending']

def q(x):
    f = Fraction(str(x)).limit_denominator(100) if abs(float(x)) > 1e-9 else Fraction(0)
    return str(f.numerator) if f.denominator == 1 else f'({f.numerator} / {f.denominator})'

def lean(recipe, cats, opt, trades):
    return (f'⟨{list(recipe)}, {[list(c) for c in cats]}, {int(float(opt[0]))}, {int(float(opt[1]))}, {q(opt[2])}, '
            '[' + ', '.join(f'({AUCTION[a]}, {int(float(k))}, {q(round(float(g), 2))}, {q(round(float(h), 2))})' for a, k, g, h in trades) + ']⟩')

HEADER = '''import Verif.Model.Ascending
import Verif.Model.TradeReduction
import Verif.Model.McAfee

set_option autoImplicit false

/-!
# The model agrees with recorded outputs of the code

Generated by tools/recorded.py from `stock/diff_in_sbbs_gft.txt` and from tables in `stock/results_bak`. Gains are recorded with two decimals.
The tables in `results_bak` were made with an older version of `trade_reduction_protocol.py`, so its columns are left out.
-/

namespace Auctions.Fidelity

open Auctions

inductive Protocol
  | mcafee
  | mcafeeWithoutHeuristic
  | tradeReduction
  | ascending

/-- A recorded run: recipe, values of the categories; deals of the optimal trade without and with sets that gain nothing, and its gain; for each
auction its deals, its gain and its gain without the auctioneer. -/
structure Run where
  recipe : List ℕ
  values : List (List ℚ)
  deals : ℕ
  dealsWithZero : ℕ
  gain : ℚ
  trades : List (Protocol × ℕ × ℚ × ℚ)

def Protocol.run (p : Protocol) (m : Market) (r : List ℕ) : Py (Option TradeWithSinglePrice) :=
  match p with
  | .mcafee => (McAfee.mcafeeTradeReduction m r).map some
  | .mcafeeWithoutHeuristic => (McAfee.mcafeeTradeReduction m r false).map some
  | .tradeReduction => (TradeReduction.tradeReduction m r).map some
  | .ascending => Ascending.auction m r 1000

/-- Equal up to the rounding to two decimals. -/
def close (x y : ℚ) : Bool := decide (-1 ≤ 200 * (x - y) ∧ 200 * (x - y) ≤ 1)

def agreesOn (m : Market) (r : List ℕ) (x : Protocol × ℕ × ℚ × ℚ) : Bool :=
  match x.1.run m r with
  | .ok (some t) =>
    match t.gainFromTrade true, t.gainFromTrade false with
    | .ok g, .ok h => t.numOfDeals == x.2.1 && close g x.2.2.1 && close h x.2.2.2
    | _, _ => false
  | _ => false

def Run.agrees (x : Run) : Bool :=
  match Market.init (x.values.map (AgentCategory.init "agent")) with
  | .ok m =>
    match m.optimalTrade x.recipe 10000000 false, m.optimalTrade x.recipe 10000000 true with
    | .ok (a, _), .ok (b, _) => a.numOfDeals == x.deals && b.numOfDeals == x.dealsWithZero && close a.gainFromTrade x.gain && close b.gainFromTrade x.gain
        && x.trades.all (agreesOn m x.recipe)
    | _, _ => false
  | _ => false

'''

if __name__ == '__main__':
    if len(sys.argv) > 1:
        for f, s, recipe, n, cats, opt, trades in records(int(sys.argv[2])):
            print('|'.join([s, ' '.join(map(str, recipe)), str(n), ' '.join(str(round(float(v) * 100)) for v in opt + [x for t in trades for x in t[1:]]),
                            ';'.join(' '.join(map(str, c)) for c in cats)]))
        sys.exit()
    out = [HEADER]
    for line, recipe, cats, opt, trades in differences():
        out.append(f'/-- `stock/diff_in_sbbs_gft.txt:{line}` -/\nexample : Run.agrees {lean(recipe, cats, opt, trades)} = true := by decide +kernel\n\n')
    byfile = {}
    for f, s, recipe, n, cats, opt, trades in records(5):
        if len(recipe) > 2 and n > 3 or sum(recipe) > 9 and s > 'C': continue
        byfile.setdefault(f, []).append(lean(recipe, cats, opt, trades))
    for f, rs in byfile.items():
        rs = rs[:24] if 'mcafee' not in f else rs
        out.append(f'/-- `{f[len("/repo/"):]}`: {len(rs)} of its rows. -/\nexample : ([{", ".join(chr(10) + "    " + r for r in rs)}] : List Run).all Run.agrees = true := by decide +kernel\n\n')
    out.append('end Auctions.Fidelity\n')
    open(OUT, 'w').write(''.join(out))
