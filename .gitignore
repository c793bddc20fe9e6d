
__pycache__/
