#!/usr/bin/env python3
"""Evaluate the conclusions of C132-C134 in floating point on edited copies of the formulas, to tell which statements an edit
makes false.  A search for counterexamples only: finding none proves nothing.  Needs no package; does not use snompy."""
import math, random

def laguerre(n):
    """nodes and weights by Newton's method"""
    def L(x):
        a, b = 1.0, 1.0 - x
        for k in range(1, n):
            a, b = b, ((2 * k + 1 - x) * b - k * a) / (k + 1)
        return b, a
    out, x = [], 0.0
    for i in range(n):
        if i == 0: x = 3 / (1 + 2.4 * n)
        elif i == 1: x += 15 / (1 + 2.5 * n)
        else: x += (1 + 2.55 * (i - 1)) / (1.9 * (i - 1)) * (x - out[i - 2][0])
        for _ in range(100):
            p, q = L(x)
            d = p * x / (n * (p - q))
            x -= d
            if abs(d) < 1e-14 * x: break
        p, q = L(x)
        out.append((x, x / (n * q) ** 2))
    return out

RULE = laguerre(8)
assert abs(sum(w for _, w in RULE) - 1) < 1e-10 and abs(sum(w * x for x, w in RULE) - 1) < 1e-10

def mul(a, b):
    return [[sum(a[i][k] * b[k][j] for k in (0, 1)) for j in (0, 1)] for i in (0, 1)]

class Model:
    def __init__(self, edit=None): self.e = edit
    def refl(self, q, eps, ts):
        e = self.e
        T = [(eps[i + 1] / eps[i]) if e == "Y09" else eps[i] / eps[i + 1] for i in range(len(eps) - 1)]
        T = [[[(1 + r) / 2, (1 - r) / 2], [(1 - r) / 2, (1 + r) / 2]] for r in T]
        M = T[0]
        for t, X in zip(ts, T[1:]):
            p = q * max(-709, min(709, t)) if e == "Y06" else max(-709, min(709, q * t))
            if e == "Y07": p = -p
            # scaled by exp(-|p|), which cancels in the ratio, so that nothing overflows
            P = [[math.exp(p - abs(p)), 0], [0, math.exp(-p - abs(p))]]
            M = mul(mul(M, X), P) if e == "Y11" else mul(mul(M, P), X)
        return (M[0][1] if e == "Y10" else M[1][0]) / M[0][0]
    def avg(self, z, eps, ts):
        return sum(w * x * self.refl(x / z if self.e == "Y08" else x / (2 * z), eps, ts) for x, w in RULE)
    def surf(self, z, eps, ts):
        b = [self.refl(x / (2 * z), eps, ts) for x, _ in RULE]
        phi = sum(w * y for (_, w), y in zip(RULE, b)) / (z if self.e == "Y14" else 2 * z)
        return phi, sum(w * x * y for (x, w), y in zip(RULE, b)) / (4 * z * z)
    def image(self, z, eps, ts):
        phi, E = self.surf(z, eps, ts)
        return abs(phi / E) - (2 * z if self.e == "Y04" else z), (phi * E if self.e == "Y05" else phi * phi / E)

def checks(m, rnd):
    """names of the statements violated by one random sample"""
    bad, tol = set(), 1e-9
    lt = lambda a, b: a < b - tol * (1 + abs(a) + abs(b))
    n = rnd.randint(1, 3)
    v = sorted(rnd.uniform(1, 12) for _ in range(n + 2))
    ts = [rnd.uniform(1, 60) for _ in range(n)]
    z, q1 = 10 ** rnd.uniform(-1.5, 1.8), rnd.uniform(.002, .05)
    y, q2 = z * rnd.uniform(.3, .9), q1 * rnd.uniform(1.1, 3)
    def run(name, f):
        try:
            if not f(): bad.add(name)
        except (OverflowError, ZeroDivisionError):
            bad.add(name)
    dec, inc = [v[0]] + v[:0:-1], v
    run("C134_reflection", lambda: not lt(m.refl(q2, dec, ts), m.refl(q1, dec, ts)) and not lt(m.refl(q1, dec, ts) / q1, m.refl(q2, dec, ts) / q2)
        and abs(m.refl(0, dec, ts) - (dec[-1] - dec[0]) / (dec[-1] + dec[0])) < 1e-9
        and not lt((dec[1] - dec[0]) / (dec[1] + dec[0]), m.refl(q2, dec, ts)))
    run("C134_average", lambda: not lt(m.avg(y, dec, ts), m.avg(z, dec, ts)))
    def im(eps, lo, hi):
        d, c = m.image(z, eps, ts)
        A = m.avg(z, eps, ts)
        return d, c, A
    def c134():
        d, c, A = im(dec, 0, z)
        return -tol * z <= d <= z * (1 + tol) and c > 0 and not lt(A, c)
    def c132():
        d, c, A = im(inc, z, None)
        return d >= z * (1 - tol) and A > 0 and not lt(c, A)
    run("C134_image", c134)
    run("C132_image", c132)
    eps = [rnd.uniform(1, 12) for _ in range(n + 2)]
    up = [eps[0] * rnd.uniform(.6, 1)] + [x * rnd.uniform(1, 1.5) for x in eps[1:]]
    run("C133_reflection", lambda: not lt(m.refl(q1, up, ts), m.refl(q1, eps, ts)))
    one = list(eps)
    one[1] *= 1.3
    run("C133_reflection_strict", lambda: m.refl(q1, one, ts) > m.refl(q1, eps, ts) or q1 * sum(ts) > 8)
    run("C133_surface", lambda: not lt(m.avg(z, up, ts), m.avg(z, eps, ts)) and all(not lt(a, b) for a, b in zip(m.surf(z, up, ts), m.surf(z, eps, ts))))
    return bad

if __name__ == "__main__":
    for e in [None, "Y04", "Y05", "Y06", "Y07", "Y08", "Y09", "Y10", "Y11", "Y14"]:
        rnd, bad = random.Random(1), {}
        for _ in range(1500):
            for b in checks(Model(e), rnd): bad[b] = bad.get(b, 0) + 1
        print(e, dict(sorted(bad.items())))
