#!/usr/bin/env python3
"""Write lean/Verif/Model/Functions.lean: signatures of the indicator classes and of the module level functions,
read off the text of /repo/ta (which is parsed, not run)."""
import ast
from fractions import Fraction

MODS = ["momentum", "trend", "volatility", "volume", "others"]


def lit(e):
    s = ast.unparse(e)
    if s in ("True", "False"):
        return f".bool {s.lower()}"
    if s == "None":
        return ".none"
    v = ast.literal_eval(e)
    if isinstance(v, int):
        return f".int {v}"
    f = Fraction(s)
    return f".num {f.numerator}" if f.denominator == 1 else f".num ({f.numerator}/{f.denominator})"


def sig(fn, skip):
    a = [x.arg for x in fn.args.args][skip:]
    d = fn.args.defaults
    out = []
    for i, x in enumerate(a):
        j = i - (len(a) - len(d))
        out.append((x, lit(d[j]) if j >= 0 else None))
    return out


classes, fns = [], []
for m in MODS:
    for n in ast.parse(open(f"/repo/ta/{m}.py").read()).body:
        if isinstance(n, ast.ClassDef):
            for g in n.body:
                if isinstance(g, ast.FunctionDef) and g.name == "__init__":
                    classes.append((n.name, m, g.lineno, sig(g, 1)))
        if isinstance(n, ast.FunctionDef):
            body = [s for s in n.body if not (isinstance(s, ast.Expr) and isinstance(s.value, ast.Constant))]
            if len(body) == 2:
                ctor, ret = body[0].value, body[1].value
                assert ret.func.value.id == body[0].targets[0].id
            else:
                (r,) = body
                ret = r.value
                ctor = ret.func.value
            assert not ret.args and not ret.keywords and not ctor.args
            fs = sig(n, 0)
            passes = []
            for k in ctor.keywords:
                if isinstance(k.value, ast.Name):
                    passes.append((k.arg, f".var .{k.value.id}"))
                else:
                    passes.append((k.arg, f".const ({lit(k.value)})"))
            fns.append((n.name, m, n.lineno, n.end_lineno, fs, ctor.func.id, passes, ret.func.attr))

params = []
for c in classes:
    for p, _ in c[3]:
        if p not in params:
            params.append(p)
meths = []
for m in MODS:
    for n in ast.parse(open(f"/repo/ta/{m}.py").read()).body:
        if isinstance(n, ast.ClassDef):
            for g in n.body:
                if isinstance(g, ast.FunctionDef) and not g.name.startswith("_"):
                    assert g.name not in [x[0] for x in meths]
                    meths.append((g.name, n.name))


def wrap(head, items, ind="    "):
    out, line = [], head
    for i, x in enumerate(items):
        x = x + ("," if i < len(items) - 1 else "]")
        if len(line) + len(x) + 1 > 118:
            out.append(line)
            line = ind + x
        else:
            line += (" " if not line.endswith("[") else "") + x
    out.append(line)
    return "\n".join(out)


def sigtxt(s):
    return [f"(.{p}, {'none' if d is None else f'some ({d})'})" for p, d in s]


o = []
w = o.append
w("import Verif.Model.Call\n")
w("/-! # Signatures of the indicator classes and the module level functions\n")
w("The tables `Cls.sig`, `PyFn.sig`, `PyFn.cls`, `PyFn.passes` and `PyFn.meth` are written by `tools/functions.py` from the text of")
w("/repo/ta; `Meth.run` connects each public method to the model of its class. -/\n")
w("namespace TA\n")


def enum(name, doc, items):
    w(f"/-- {doc} -/")
    w(f"inductive {name}")
    line = " "
    for x in items:
        if len(line) + len(x) + 3 > 118:
            w(line)
            line = " "
        line += f" | {x}"
    w(line)
    w("  deriving DecidableEq\n")


enum("Param", "parameter names", params)
enum("Cls", "indicator classes", [c[0] for c in classes])
enum("Meth", "public methods", [x[0] for x in meths])
enum("PyFn", "module level functions", [f[0] for f in fns])

w("/-- constructor signatures (without `self`) -/")
w("def Cls.sig : Cls → Sig Param")
for c in classes:
    w(f"  -- ta/{c[1]}.py:{c[2]}")
    w(wrap(f"  | .{c[0]} => [", sigtxt(c[3])))
w("")
w("/-- the class a method belongs to -/")
w("def Meth.cls : Meth → Cls")
for m, c in meths:
    w(f"  | .{m} => .{c}")
w("")
w("/-- function signatures -/")
w("def PyFn.sig : PyFn → Sig Param")
for f in fns:
    w(f"  -- ta/{f[1]}.py:{f[2]}-{f[3]}")
    w(wrap(f"  | .{f[0]} => [", sigtxt(f[4])))
w("")
w("/-- the class the function constructs -/")
w("def PyFn.cls : PyFn → Cls")
for f in fns:
    w(f"  | .{f[0]} => .{f[5]}")
w("")
w("/-- the keyword arguments it passes to the constructor -/")
w("def PyFn.passes : PyFn → List (Param × Arg Param)")
for f in fns:
    w(wrap(f"  | .{f[0]} => [", [f"(.{p}, {a})" for p, a in f[6]]))
w("")
w("/-- the method it calls on the object -/")
w("def PyFn.meth : PyFn → Meth")
for f in fns:
    w(f"  | .{f[0]} => .{f[7]}")
w("")

S = {"close": "ser", "high": "ser", "low": "ser", "volume": "ser", "fillna": "bool", "visual": "bool",
     "original_version": "bool", "window_dev": "num", "multiplier": "num", "step": "num", "max_step": "num",
     "constant": "num", "weight1": "num", "weight2": "num", "weight3": "num", "offset": "int",
     "smoothing_factor": "optNat", "dropnans": "bool"}
HLC = "high low close"
KSTP = "roc1 roc2 roc3 roc4 window1 window2 window3 window4"
runs = {
    "rsi": ("e", "TA.rsi close window fillna"),
    "tsi": ("e", "TA.tsi close window_slow window_fast fillna"),
    "ultimate_oscillator": ("s", "ultimateOscillator high low close window1 window2 window3 weight1 weight2 weight3 fillna"),
    "stoch": ("s", "TA.stoch high low close window fillna"),
    "stoch_signal": ("s", "TA.stochSignal high low close window smooth_window fillna"),
    "kama": ("s", "TA.kama close window pow1 pow2 fillna"),
    "roc": ("s", "TA.roc close window fillna"),
    "awesome_oscillator": ("s", "awesomeOscillator high low window1 window2 fillna"),
    "williams_r": ("s", "TA.williamsR high low close lbp fillna"),
    "stochrsi": ("m", "StochRSI.new close window smooth1 smooth2 fillna", "stochrsi"),
    "stochrsi_k": ("m", "StochRSI.new close window smooth1 smooth2 fillna", "stochrsiK"),
    "stochrsi_d": ("m", "StochRSI.new close window smooth1 smooth2 fillna", "stochrsiD"),
    "wma": ("s", "TA.wma close window fillna"),
    "ema_indicator": ("e", "emaIndicator close window fillna"),
    "sma_indicator": ("s", "smaIndicator close window fillna"),
    "trix": ("e", "TA.trix close window fillna"),
    "mass_index": ("e", "TA.massIndex high low window_fast window_slow fillna"),
    "ichimoku_conversion_line": ("s", "ichimokuConversionLine high low window1 fillna"),
    "ichimoku_base_line": ("s", "ichimokuBaseLine high low window2 fillna"),
    "ichimoku_a": ("s", "TA.ichimokuA high low window1 window2 visual fillna"),
    "ichimoku_b": ("s", "TA.ichimokuB high low window2 window3 visual fillna"),
    "kst": ("s", f"TA.kst close {KSTP} fillna"),
    "kst_sig": ("s", f"TA.kstSig close {KSTP} nsig fillna"),
    "kst_diff": ("s", f"TA.kstDiff close {KSTP} nsig fillna"),
    "dpo": ("s", "TA.dpo close window fillna"),
    "cci": ("s", "TA.cci high low close window constant fillna"),
    "adx": ("b", "ADX.new high low close window fillna", "adx"),
    "adx_pos": ("m", "ADX.new high low close window fillna", "adxPos"),
    "adx_neg": ("m", "ADX.new high low close window fillna", "adxNeg"),
    "stc": ("e", "TA.stc close window_slow window_fast cycle smooth1 smooth2 fillna"),
    "average_true_range": ("e", "averageTrueRange high low close window fillna"),
    "ulcer_index": ("e", "ulcerIndex close window fillna"),
    "acc_dist_index": ("s", "accDistIndex high low close volume fillna"),
    "on_balance_volume": ("s", "onBalanceVolume close volume fillna"),
    "chaikin_money_flow": ("s", "chaikinMoneyFlow high low close volume window fillna"),
    "force_index": ("e", "forceIndex close volume window fillna"),
    "ease_of_movement": ("s", "easeOfMovement high low volume fillna"),
    "sma_ease_of_movement": ("s", "smaEaseOfMovement high low volume window fillna"),
    "volume_price_trend": ("s", "volumePriceTrend close volume fillna smoothing_factor dropnans"),
    "negative_volume_index": ("e", "negativeVolumeIndex close volume fillna"),
    "money_flow_index": ("s", "moneyFlowIndex high low close volume window fillna"),
    "volume_weighted_average_price": ("s", "volumeWeightedAveragePrice high low close volume window fillna"),
    "daily_return": ("s", "dailyReturn close fillna"),
    "daily_log_return": ("s", "dailyLogReturn close fillna"),
    "cumulative_return": ("e", "cumulativeReturn close fillna"),
}
for x, f in [("ppo", "ppo"), ("ppo_signal", "ppoSignal"), ("ppo_hist", "ppoHist")]:
    runs[x] = ("m", "PPO.new close window_slow window_fast window_sign fillna", f)
    runs["pvo" + x[3:]] = ("m", "PPO.new volume window_slow window_fast window_sign fillna", f)
for x, f in [("macd", "macd"), ("macd_signal", "macdSignal"), ("macd_diff", "macdDiff")]:
    runs[x] = ("m", "MACD.new close window_slow window_fast window_sign fillna", f)
for x, f in [("aroon_up", "aroonUp"), ("aroon_down", "aroonDown"), ("aroon_indicator", "aroonIndicator")]:
    runs[x] = ("m", "Aroon.new high low window fillna", f)
for x, f in [("pos", "vortexPos"), ("neg", "vortexNeg"), ("diff", "vortexDiff")]:
    runs["vortex_indicator_" + x] = ("s", f"TA.{f} high low close window fillna")
for x, f in [("psar", "psar"), ("psar_up", "psarUp"), ("psar_down", "psarDown"),
             ("psar_up_indicator", "psarUpIndicator"), ("psar_down_indicator", "psarDownIndicator")]:
    runs[x] = ("m", "PSAR.new high low close .positional step max_step fillna", f)
for x in ["mavg", "hband", "lband", "wband", "pband", "hband_indicator", "lband_indicator"]:
    n = "".join(t.capitalize() for t in x.split("_"))
    runs["bollinger_" + x] = ("p", "BB.new close window window_dev fillna", "bollinger" + n)
for x, f in [("mband", "mband"), ("hband", "hband"), ("lband", "lband"), ("wband", "wband"), ("pband", "pband"),
             ("hband_indicator", "hbandIndicator"), ("lband_indicator", "lbandIndicator")]:
    runs["keltner_channel_" + x] = (
        "m", "Keltner.new high low close window window_atr fillna original_version multiplier", f)
    if "indicator" not in x:
        runs["donchian_channel_" + x] = ("m", "Donchian.new high low close window offset fillna", f)

w("variable {F : Type} [FltFn F]\n")
w("/-- Run a method of an object whose constructor arguments are given (for the parabolic SAR: on a non-integer index). -/")
w("def Meth.run (env : Env Param F) : Meth → Except CallErr (Series F)")
for m, c in meths:
    kind, ex, *rest = runs[m]
    toks = ex.split()[1:]
    args = []
    for t in toks:
        if t in params:
            args.append(f"(← env.{S.get(t, 'nat')} .{t})")
        else:
            args.append(t)
    call = " ".join([ex.split()[0]] + args)
    if kind == "e":
        t = f"lift ({call})"
    elif kind == "s":
        t = f"return {call}"
    elif kind == "m":
        t = f"lift (({call}).map (·.{rest[0]}))"
    elif kind == "b":
        t = f"lift (({call}).bind (·.{rest[0]}))"
    elif kind == "p":
        t = f"return ({call}).{rest[0]}"
    line = f"  | .{m} => do {t}"
    if len(line) > 118:
        w(f"  | .{m} => do")
        cur = "      "
        for piece in t.replace(" (← ", "\0(← ").split("\0"):
            if len(cur) + len(piece) + 1 > 118:
                w(cur.rstrip())
                cur = "        "
            cur += piece + " "
        w(cur.rstrip())
    else:
        w(line)
w("")
w("/-- `Cls(*pos, **kw).meth()` -/")
w("def callCls (c : Cls) (m : Meth) (pos : List (PyVal F)) (kw : List (Param × PyVal F)) : Except CallErr (Series F) := do")
w("  m.run (← bind c.sig pos kw)\n")
w("/-- `fn(*pos, **kw)` -/")
w("def callFn (f : PyFn) (pos : List (PyVal F)) (kw : List (Param × PyVal F)) : Except CallErr (Series F) := do")
w("  let env ← bind f.sig pos kw")
w("  callCls f.cls f.meth [] (f.passes.map fun a => (a.1, a.2.val env))\n")
w("end TA")
open("/verif/lean/Verif/Model/Functions.lean", "w").write("\n".join(o) + "\n")
print(len(classes), len(meths), len(fns), len(params))
