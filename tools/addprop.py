#!/usr/bin/env python3
"""Appends properties read as JSON objects (without id) from stdin to properties.jsonl."""
import sys, json, os
ROOT = os.path.dirname(os.path.dirname(os.path.abspath(__file__)))
f = ROOT + "/properties.jsonl"
n = sum(1 for _ in open(f))
with open(f, "a") as o:
    for x in json.load(sys.stdin):
        n += 1
        o.write(json.dumps({"id": "C%02d" % n, **x}, ensure_ascii=False) + "\n"); print("C%02d" % n, x["title"])
