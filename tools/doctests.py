#!/usr/bin/env python3
"""Transcribes doctests and unit tests of /repo into kernel-checked examples about the Lean model.

The code of /repo is only read as text. Output: lean/Verif/Fidelity/{Single,UnitTests}.lean.
Decimals are read as the fraction with the smallest denominator (<= 1000) that is closest to them.
"""
import ast, re, sys
from fractions import Fraction

REPO = '/repo/'
OUT = '/verif/lean/Verif/Fidelity/'

def q(x):
    f = Fraction(x).limit_denominator(1000) if not isinstance(x, str) else Fraction(x).limit_denominator(1000)
    return f"({f})" if f < 0 or f.denominator != 1 else str(f)

def qs(l): return '[' + ', '.join(q(x) for x in l) + ']'

def literal(node):
    if ast.unparse(node) == 'list(range(20))': return list(range(20))   # ascending_auction_test.py:138
    return ast.literal_eval(node)

def categories(node):
    """AgentCategory(name, values) calls of a `Market([...])` expression."""
    assert node.func.id == 'Market'
    res = []
    for c in node.args[0].elts:
        assert c.func.id == 'AgentCategory'
        res.append((literal(c.args[0]), literal(c.args[1])))
    return res

def lean_cats(cats): return '[' + ', '.join(f'.init "{n}" {qs(v)}' for n, v in cats) + ']'

FUN = {'budget_balanced_trade_reduction': lambda m, r: f'TradeReduction.tradeReduction {m} {r}',
       'mcafee_trade_reduction': lambda m, r: f'McAfee.mcafeeTradeReduction {m} {r}',
       'budget_balanced_ascending_auction': None}

LINE_ALL = re.compile(r'^(\w+): (\[.*\]): all (\d+) agents trade and pay (\S+)$')
LINE_RANDOM = re.compile(r'^(\w+): (\[.*\]): random (\d+) out of (\d+) agents trade and pay (\S+)$')

def lean_lines(lines):
    if lines == ['No trade']: return 'none'
    res = []
    for l in lines:
        m = LINE_ALL.match(l)
        if m:
            res.append(f'.all ⟨"{m[1]}", {qs(ast.literal_eval(m[2]))}⟩ {m[3]} {q(m[4])}')
            continue
        m = LINE_RANDOM.match(l)
        assert m, l
        res.append(f'.random ⟨"{m[1]}", {qs(ast.literal_eval(m[2]))}⟩ {m[3]} {m[4]} {q(m[5])}')
    return 'some [' + ',\n      '.join(res) + ']'

def single():
    out = []
    for file in ['trade_reduction_protocol.py', 'ascending_auction_protocol.py', 'mcafee_protocol.py']:
        lines = open(REPO + file).read().split('\n')
        market = None
        i = 0
        while i < len(lines):
            l = lines[i].strip()
            if l.startswith('>>> market = '):
                market = categories(ast.parse(l[4:]).body[0].value)
            m = re.match(r'>>> (?:print\(market\); )?print\((\w+)\(market, (\[[\d, ]+\])\)\)$', l)
            if m:
                j = i + 1
                expected = []
                while lines[j].strip() and not lines[j].strip().startswith(('>>>', '#', '"""')):
                    expected.append(lines[j].strip()); j += 1
                if expected[0].startswith('Traders: '):
                    shown = re.findall(r'(\w+): (\[[^\]]*\])', expected.pop(0)[len('Traders: ['):])
                    got = [(n, ast.literal_eval(v)) for n, v in shown]
                    out.append(f'/-- `{file}:{i+1}` — the printed market. -/\nexample : ({lean_cats(market)} : List AgentCategory) =\n    [' +
                               ', '.join(f'⟨"{n}", {qs(v)}⟩' for n, v in got) + '] := by decide +kernel\n')
                r = str(ast.literal_eval(m[2]))
                if m[1] == 'budget_balanced_ascending_auction':
                    call = f'ascendingText {lean_cats(market)} {r}'
                elif m[1] == 'mcafee_trade_reduction':
                    call = f'mcafeeText {lean_cats(market)} {r}'
                else:
                    call = f'reductionText {lean_cats(market)} {r}'
                out.append(f'/-- `{file}:{i+1}` -/\nexample : {call} =\n    .ok ({lean_lines(expected)}) := by decide +kernel\n')
            i += 1
    head = '''import Verif.Model.Reports
import Verif.Model.Ascending
import Verif.Model.TradeReduction
import Verif.Model.McAfee

set_option autoImplicit false

/-!
# The doctests of the three protocols for a single recipe, run on the model

Generated by `/verif/tools/doctests.py` from the docstrings of `trade_reduction_protocol.py`, `ascending_auction_protocol.py` and `mcafee_protocol.py`:
each printed trade is compared with the text (`Model/Reports.lean`) of the trade that the model computes. These are tests of the model
against recorded behaviour of the code, not proofs of properties.
-/

namespace Auctions.Fidelity

/-- `print(budget_balanced_trade_reduction(Market(cats), r))` -/
def reductionText (cats : List AgentCategory) (r : List ℕ) : Py (Option (List PriceLine)) := do
  (← TradeReduction.tradeReduction (← Market.init cats) r).repr

/-- `print(mcafee_trade_reduction(Market(cats), r))` -/
def mcafeeText (cats : List AgentCategory) (r : List ℕ) : Py (Option (List PriceLine)) := do
  (← McAfee.mcafeeTradeReduction (← Market.init cats) r).repr

/-- `print(budget_balanced_ascending_auction(Market(cats), r))`; 1000 rounds are enough for the markets below (otherwise the comparison fails). -/
def ascendingText (cats : List AgentCategory) (r : List ℕ) : Py (Option (List PriceLine)) := do
  match ← Ascending.auction (← Market.init cats) r 1000 with
  | none => .error .valueError
  | some t => t.repr

'''
    open(OUT + 'Single.lean', 'w').write(head + '\n'.join(out) + '\nend Auctions.Fidelity\n')
    return len(out)

def unit_tests():
    """ascending_auction_test.py (single recipe and, by inheritance, chains of the tree auction) and ascending_auction_recipetree_test.py."""
    out = []
    for file in ['ascending_auction_test.py', 'ascending_auction_recipetree_test.py']:
        tree = ast.parse(open(REPO + file).read())
        for cls in [n for n in tree.body if isinstance(n, ast.ClassDef)]:
            for test in [n for n in cls.body if isinstance(n, ast.FunctionDef) and n.name.startswith('test')]:
                inner = [n for n in test.body if isinstance(n, ast.FunctionDef)]
                if not inner: continue
                f = inner[0]
                names = {}
                struct = None
                for st in f.body:
                    if isinstance(st, ast.Assign) and st.targets[0].id == 'market':
                        cats = [(literal(c.args[0]), c.args[1].id) for c in st.value.args[0].elts]
                    if isinstance(st, ast.Assign) and st.targets[0].id in ('ps_recipe', 'ps_recipe_struct'):
                        struct = literal(st.value)
                for st in test.body:
                    if isinstance(st, ast.Expr) and isinstance(st.value, ast.Call) and getattr(st.value.func, 'id', None) == f.name:
                        kw = {k.arg: literal(k.value) for k in st.value.keywords}
                        for a, v in zip(f.args.args, st.value.args): kw[a.arg] = literal(v)
                        cs = [(n, kw[v]) for n, v in cats]
                        out.append((file, st.lineno, struct, cs, kw['expected_num_of_deals'], kw['expected_prices']))
    return out

def obj(s):
    if s is None: return '.none'
    if isinstance(s, int): return f'.int {s}'
    return '.list [' + ', '.join(obj(x) for x in s) + ']'

def chain(r):
    res = None
    rev = list(enumerate(r))[::-1]
    rev = rev[-1:] + rev[:-1]
    for i, c in rev:
        if c > 0: res = [i, res]
    return res

def price(p): return 'none' if p is None else f'some {q(p)}'

# Unit tests whose expected prices contradict the code: line -> the prices that the code gives (traced by hand).
STALE = {85: [8, -2, -6], 87: [8, -2, -6], 89: [8, -3, -5], 91: [8, -4, -4], 99: [13, -5, -8], 102: [13, -6, -7], 105: [13, -6, -7]}
def unit():
    out = []
    for file, line, struct, cats, deals, prices in unit_tests():
        ps = '[' + ', '.join(price(p) for p in prices) + ']'
        if file == 'ascending_auction_test.py':
            stale = line in STALE
            note = f'; the test expects other prices than the code gives, see the head of this file' if stale else ''
            out.append(f'/-- `{file}:{line}`{note} -/\nexample : checkSingle {lean_cats(cats)} {struct} {deals} {ps} = {"false" if stale else "true"} := by decide +kernel\n')
            if stale:
                out.append(f'/-- `{file}:{line}`, with the prices that the code gives. -/\nexample : checkSingle {lean_cats(cats)} {struct} {deals} '
                           f'{"[" + ", ".join(price(p) for p in STALE[line]) + "]"} = true := by decide +kernel\n')
            if max(struct) <= 1:
                out.append(f'/-- `{file}:{line}`, as overridden in `ascending_auction_recipetree_test.py:64-72`. -/\nexample : checkTree {lean_cats(cats)} '
                           f'[{", ".join(obj(x) for x in chain(struct))}] {deals} {ps} = true := by decide +kernel\n')
        else:
            out.append(f'/-- `{file}:{line}` -/\nexample : checkTree {lean_cats(cats)} [{", ".join(obj(x) for x in struct)}] {deals} {ps} = true := by decide +kernel\n')
    head = '''import Verif.Model.Ascending
import Verif.Model.TreeAuction
import Verif.Model.PricesInteger

set_option autoImplicit false

/-!
# The unit tests of the ascending auctions, run on the model

Generated by `/verif/tools/doctests.py` from `ascending_auction_test.py` and `ascending_auction_recipetree_test.py`. The initial prices of the tree
auction come from `scipy.optimize.linprog`, a parameter of the model; the tests are run with the explicit initial prices of `prices_integer.py`,
which satisfy what `linprog` is asked for (C42). Tests of the model, not proofs of properties.

Seven tests of `test_market_1_1_1` (lines 85-91 and 99-105) are out of date for the auction with a single recipe: their expected prices are those of the tree
auction, whose chain has the mediators before the sellers but raises the buyers first and the mediators last
(`ascending_auction_recipetree_test.py:30-54`). The single-recipe code takes, among the categories with the highest ratio, the first (`max`,
`ascending_auction_protocol.py:117`), hence stops at other prices: in the test of line 85 (values 9,8 / -1,-2 / -3,-4) it raises the buyers to 8 (8 leaves),
the mediators to -2 (-2 leaves), and the sellers from -MAX_VALUE until the sum is zero, that is to -6, below the value -4 of the lowest seller.
These tests are stated with `false`, followed by the prices that the code gives.
-/

namespace Auctions.Fidelity

/-- The comparison of prices in `_check_market`: `None` stands for any price. -/
def samePrices : List (Option ℚ) → List ℚ → Bool
  | [], _ => true
  | none :: es, _ :: ps => samePrices es ps
  | some e :: es, p :: ps => e = p && samePrices es ps
  | _ :: _, [] => false

/-- `ascending_auction_test.py:25-30` — `_check_market`. -/
def checkSingle (cats : List AgentCategory) (r : List ℕ) (deals : ℕ) (prices : List (Option ℚ)) : Bool :=
  match Ascending.auction ⟨cats⟩ r 1000 with
  | .ok (some t) => t.numOfDeals = deals && (match t.prices with
    | some ps => samePrices prices ps
    | none => false)
  | _ => false

/-- `ascending_auction_recipetree_test.py:83-88` — `_check_market`. -/
def checkTree (cats : List AgentCategory) (struct : List PyObj) (deals : ℕ) (prices : List (Option ℚ)) : Bool :=
  match TreeAuction.auction IntegerPrices.calculateInitialPrices ⟨cats⟩ struct 1000 with
  | .ok (some t) => t.numOfDeals = deals && samePrices prices t.prices
  | _ => false

'''
    open(OUT + 'UnitTests.lean', 'w').write(head + '\n'.join(out) + '\nend Auctions.Fidelity\n')
    return len(out)


# ---------------------------------------------------------------------------------------------------------------------------------------------------
# Trees: a small interpreter of the doctest lines, with stand-ins for AgentCategory and RecipeTree that only remember their arguments.

class Cat:
    def __init__(self, name, values): self.name, self.values = name, sorted(values, reverse=True)

class Tree:
    def __init__(self, categories, struct, counts=None): self.categories, self.struct, self.counts = categories, struct, counts

def collect(lines, i):
    j = i + 1
    res = []
    while lines[j].strip() and not lines[j].strip().startswith(('>>>', '#', '"""')):
        res.append(lines[j].strip()); j += 1
    return [l for l in res if l != '<BLANKLINE>']

def text_lines(names, lines):
    res = []
    ix = lambda n: str(names.index(n.strip()))
    for l in lines:
        for pat, f in [
            (r'^(\w+): (\d+) potential deals, price=(\S+)$', lambda m: f'.potential {ix(m[1])} {m[2]} {q(m[3])}'),
            (r'^(\w+): all (\d+) traders selected, price=(\S+)$', lambda m: f'.allTraders {ix(m[1])} {m[2]} {q(m[3])}'),
            (r'^(\w+): (\d+) out of (\d+) traders selected, price=(\S+)$', lambda m: f'.someTraders {ix(m[1])} {m[2]} {m[3]} {q(m[4])}'),
            (r'^([\w+ ]+): all (\d+) (?:traders|deals) selected$', lambda m: f'.allOf [{", ".join(ix(n) for n in m[1].split("+"))}] {m[2]}'),
            (r'^([\w+ ]+): (\d+) out of (\d+) (?:traders|deals) selected$', lambda m: f'.someOf [{", ".join(ix(n) for n in m[1].split("+"))}] {m[2]} {m[3]}'),
            (r'^(\d+) deals overall$', lambda m: f'.overall {m[1]}')]:
            m = re.match(pat, l)
            if m:
                res.append(f(m)); break
        else: raise ValueError(l)
    return '[' + ', '.join(res) + ']'

def nat_list(x):
    return '[' + ', '.join(nat_list(y) if isinstance(y, list) else str(y) for y in x) + ']'

def rows(x): return '[' + ', '.join(qs(y if isinstance(y, (list, tuple)) else [y]) for y in x) + ']'

def tree_doctests(file, integer):
    out, skipped = [], []
    lines = open(REPO + file).read().split('\n')
    env = {'AgentCategory': Cat, 'RecipeTree': Tree, 'str': str, 'range': range}
    for i, raw in enumerate(lines):
        l = raw.strip()
        if not l.startswith('>>> '): continue
        src = l[4:].split('  #')[0].strip()
        if not src or src.startswith('#'): continue
        try: node = ast.parse(src).body[0]
        except SyntaxError: continue
        if 'dot(' in src: continue
        if isinstance(node, ast.Assign):
            exec(src, env); continue
        expected = collect(lines, i)
        e, negated, last, printed = node.value, False, False, False
        if isinstance(e, ast.Compare):
            assert isinstance(e.ops[0], ast.NotEq) and expected == ['True']
            negated = True; expected = [ast.unparse(e.comparators[0])]; e = e.left
        if isinstance(e, ast.Call) and getattr(e.func, 'id', None) == 'print': printed = True; e = e.args[0]
        if isinstance(e, ast.Subscript): last = True; e = e.value
        assert isinstance(e, ast.Call) and isinstance(e.func, ast.Attribute), src
        method = e.func.attr
        if method == 'recipe_from_path':
            path, n = literal(e.args[0]), literal(e.args[1])
            counts = literal(e.args[2]) if len(e.args) > 2 else None
            call = f'IntegerTree.recipeFromPath {path} {n} {counts or []}' if integer or counts else f'RecipeTree.recipeFromPath {path} {n}'
            out.append(f'/-- `{file}:{i+1}` -/\nexample : {call} = .ok {expected[0]} := by decide +kernel\n')
            continue
        t = eval(ast.unparse(e.func.value), env)
        names = [c.name for c in t.categories]
        cats = '[' + ', '.join(f'⟨"{c.name}", {qs(c.values)}⟩' for c in t.categories) + ']'
        struct = '[' + ', '.join(obj(x) for x in t.struct) + ']'
        n = len(t.categories)
        cnt = f'(countOf {nat_list(t.counts or [])})'
        kw = {k.arg: literal(k.value) for k in e.keywords}
        val = None if printed else ast.literal_eval(expected[0])
        to_ix = lambda x: [to_ix(y) if isinstance(y, list) else (names.index(y) if isinstance(y, str) else y) for y in x]
        sz = '(TreeAuction.sizeAt cats)'
        vals = '(TreeAuction.valuesAt cats)'
        if method == 'combined_values':
            body, want = (f'IntegerTree.combinedValues {cnt} {vals} t.forest', rows(val)) if integer else (f't.combinedValues {vals}', qs(val))
        elif method == 'combined_values_detailed':
            body, want = (f'IntegerTree.combinedValuesDetailed t {cnt} {vals}' if integer else f'(t.combinedValuesDetailed {vals}).map Forest.Item.flat'), rows(val)
        elif method == 'optimal_trade_GFT':
            body, want = (f'IntegerTree.optimalTradeGFT t {cnt} {vals}' if integer else f't.optimalTradeGFT {vals}'), q(val)
        elif method == 'largest_categories':
            call = f'IntegerTree.largestCategories {cnt} {sz} t.forest' if integer else f't.largestCategories {sz}'
            if last: body, want = f'({call}).2.2', nat_list(to_ix(val))
            else: body, want = call, f'({val[0]:g}, {val[1]:g}, {nat_list(to_ix(val[2]))})'
        elif method == 'paths_to_leaf':
            body, want = 't.pathsToLeaf', nat_list(to_ix(val))
        elif method == 'num_of_deals':
            body, want = (f'IntegerTree.numOfDeals {cnt} {sz} t.forest' if integer else f't.numOfDeals {sz}'), str(val)
        elif method == 'recipes':
            call = f'IntegerTree.recipes t {n} {nat_list(t.counts or [])}' if integer else f't.recipes {n}'
            out.append(f'/-- `{file}:{i+1}` -/\nexample : (RecipeTree.init {n} {struct} >>= fun t => {call}) = .ok {nat_list(val)} := by decide +kernel\n')
            continue
        elif method == 'num_of_deals_explained':
            ps = qs(kw['prices'])
            if integer:
                call = f'(IntegerTree.explained {cnt} (TreeAuction.sizeAt {cats}) {ps} t.forest).map (fun es => es.map (·.2.1))'
                want = '[' + text_lines(names, expected[:-1]) + ']'
            else:
                call = f'(t.explained (TreeAuction.sizeAt {cats}) {ps}).map (·.2.1)'
                want = text_lines(names, expected)
            out.append(f'/-- `{file}:{i+1}` -/\nexample : (RecipeTree.init {n} {struct} >>= fun t => {call}) =\n    .ok {want} := by decide +kernel\n')
            continue
        else:
            skipped.append((i + 1, src)); continue
        rel = '≠' if negated else '='
        out.append(f'/-- `{file}:{i+1}` -/\nexample : let cats : List AgentCategory := {cats}\n    (RecipeTree.init {n} {struct}).map (fun t => {body}) {rel} .ok {want} := by decide +kernel\n')
    return out, skipped

def trees():
    total = 0
    for file, integer, name in [('recipetree.py', False, 'Trees'), ('recipetree_integer.py', True, 'IntegerTrees')]:
        out, skipped = tree_doctests(file, integer)
        head = f"""import Verif.Model.Reports
import Verif.Model.TreeAuction
import Verif.Model.RecipeTreeInteger

set_option autoImplicit false

/-!
# The doctests of `{file}`, run on the model

Generated by `/verif/tools/doctests.py`. The names of categories in the expected results are replaced by their indices.
Tests of the model, not proofs of properties.
""" + (('\nNot transcribed: the calls of `combined_values_detailed_with_counters` (' + ', '.join(f'line {l}' for l, _ in skipped)
             + '), whose expected\nresults lack the counters that the method returns; the method is modelled in `Model/Counters.lean`.\n') if skipped else '') + """-/

namespace Auctions.Fidelity

open IntegerTree (countOf)

"""
        open(OUT + name + '.lean', 'w').write(head + '\n'.join(out) + '\nend Auctions.Fidelity\n')
        total += len(out)
        print(file, 'skipped', [x for x in skipped][:20])
    return total


def tree_auctions():
    out = []
    for file, integer in [('ascending_auction_recipetree_protocol.py', False), ('ascending_auction_recipetree_integer_protocol.py', True)]:
        lines = open(REPO + file).read().split('\n')
        structs = {}
        for i, raw in enumerate(lines):
            l = raw.strip()
            m = re.match(r'>>> (recipe_\w+) = (.*)$', l)
            if m: structs[m[1]] = ast.literal_eval(m[2])
            if l.startswith('>>> market = '): market = categories(ast.parse(l[4:]).body[0].value)
            m = re.match(r'>>> print\(market\); print\(budget_balanced_ascending_auction\(market, (\w+)\)\)$', l)
            if m:
                expected = collect(lines, i)[1:]
                if not expected: continue
                names = [n for n, _ in market]
                want = 'none' if expected == ['No trade'] else 'some ' + text_lines(names, expected)
                struct = '[' + ', '.join(obj(x) for x in structs[m[1]]) + ']'
                fn = 'integerText' if integer else 'treeText'
                out.append(f'/-- `{file}:{i+1}` -/\nexample : {fn} {lean_cats(market)} {struct} =\n    .ok ({want}) := by decide +kernel\n')
    head = """import Verif.Model.Reports
import Verif.Model.TreeAuction
import Verif.Model.TreeAuctionInteger
import Verif.Model.PricesInteger

set_option autoImplicit false

/-!
# The doctests of the two tree auctions, run on the model

Generated by `/verif/tools/doctests.py` from `ascending_auction_recipetree_protocol.py` and `ascending_auction_recipetree_integer_protocol.py`; for the
first, with the explicit initial prices of `prices_integer.py` in place of `linprog`. A doctest without an expected trade
(`ascending_auction_recipetree_protocol.py:101`) is left out, and so are the printed markets (the one of line 92 does not show
the market that was created). Tests of the model, not proofs of properties.
-/

namespace Auctions.Fidelity

/-- `print(budget_balanced_ascending_auction(Market(cats), struct))` of `ascending_auction_recipetree_protocol.py`. -/
def treeText (cats : List AgentCategory) (struct : List PyObj) : Py (Option (List Line)) := do
  match ← TreeAuction.auction IntegerPrices.calculateInitialPrices (← Market.init cats) struct 1000 with
  | none => .error .valueError
  | some t => t.repr

/-- `print(budget_balanced_ascending_auction(Market(cats), struct))` of `ascending_auction_recipetree_integer_protocol.py`. -/
def integerText (cats : List AgentCategory) (struct : List PyObj) : Py (Option (List Line)) := do
  match ← IntegerAuction.auction (← Market.init cats) struct [] 1000 with
  | none => .error .valueError
  | some t => IntegerAuction.repr (IntegerTree.countOf []) t

"""
    open(OUT + 'TreeAuctions.lean', 'w').write(head + '\n'.join(out) + '\nend Auctions.Fidelity\n')
    return len(out)

if __name__ == '__main__':
    print(single(), unit(), trees(), tree_auctions())
